import Verif.Nmdc.Writer

/-!
# Decoders and encoders that are changed while messages are read or written

`nmdc.Reader` and `nmdc.Writer` keep their decoder and encoder in an `atomic.Value`, so that another goroutine or a callback may
change it during a call. These are machines whose steps are the accesses to that variable; between two steps anything may be
stored in it.

The goroutine that reads accesses the variable twice: it loads it when a call begins (`nmdc/reader.go:149`) and stores the decoder
it gets from `OnUnknownEncoding` (line 305). The goroutine that writes only loads it (`nmdc/writer.go:67`).
-/

namespace Verif.Nmdc

open Verif.Go Verif.Lineproto

variable [HtmlEntities] {Z : Type}

/-- What a call of `readMsgTo` ends with: the error, `*ptr`, the elements of `allowed` and which of them was hit. -/
abbrev RawRet := Option Err × Option Msg × List Msg × Option Nat

/-- Where the goroutine that reads is: between two calls, before it reads the `k`-th line of a call, or before the store in line
305, if there is one. The field `rdec` of `St` is the decoder to be stored, nil if there is none. -/
inductive RPhase where
  | idle
  | reading (k : Nat) (st : St)
  | decoded (k : Nat) (x : Round)

/-- The reader, whose `dec` is the shared variable, and the results of the calls that have ended. -/
structure RState (Z : Type) where
  r : NReader Z
  phase : RPhase := .idle
  results : List RawRet := []

/-- The steps: `SetDecoder` by anyone, any other use of the embedded line reader between two calls, and the three steps of a call
of `readMsgTo`. -/
inductive REv (Z : Type) where
  | set (d : Codec)
  | between (f : Reader Z → Reader Z)
  | call (cur : Option Msg) (arr : List Msg)
  | line (fuel : Nat)
  | store

/-- The end of a round: line 305 and what follows. -/
def RState.finish (s : RState Z) (k : Nat) : Round → Option (RState Z)
  | .panic => none
  | .again st => some { s with r := { s.r with dec := st.rdec.or s.r.dec }, phase := .reading (k + 1) { st with rdec := none } }
  | .ret e st => some { r := { s.r with dec := st.rdec.or s.r.dec }, phase := .idle, results := s.results ++ [(e, st.cur, st.arr, st.hit)] }

/-- One step, `nmdc/reader.go:106-114` and `148-329`; `none` if it is not possible, or a panic. -/
def RState.step (I : Inflater Z) (left : Codec → Msg → Bytes → Msg) (s : RState Z) : REv Z → Option (RState Z)
  | .set d => some { s with r := { s.r with dec := d } }
  | .between f =>
    match s.phase with
    | .idle => some { s with r := { s.r with lines := f s.r.lines } }
    | _ => none
  | .call cur arr =>
    match s.phase with
    | .idle => some { s with phase := .reading 0 { s.r.start cur arr with rdec := none } }
    | _ => none
  | .line fuel =>
    match s.phase with
    | .reading k st =>
      match s.r.lines.readLine I fuel with
      | .val (res, lr) => some { s with r := { s.r with lines := lr }, phase := .decoded k (round (s.r.env k) left s.r.maxCmdName res st) }
      | _ => none
    | _ => none
  | .store =>
    match s.phase with
    | .decoded k x => s.finish k x
    | _ => none

/-- An execution. -/
def RState.run (I : Inflater Z) (left : Codec → Msg → Bytes → Msg) : List (REv Z) → RState Z → Option (RState Z)
  | [], s => some s
  | e :: es, s =>
    match s.step I left e with
    | some s' => RState.run I left es s'
    | none => none

/-! ### The writer -/

variable {D : Type}

/-- Where the goroutine that writes is: between two calls, or in a call of `WriteMsg` with the encoder it has loaded and the
messages it has not written. -/
inductive WPhase where
  | idle
  | writing (enc : Codec) (ms : List (Msg × Order))

/-- The writer, whose `enc` is the shared variable, and the errors the calls returned. -/
structure WState (D : Type) where
  w : NWriter D
  phase : WPhase := .idle
  results : List (Option Err) := []

/-- The steps: `SetEncoder` by anyone, any other call but these two, and the steps of a call of `WriteMsg`. -/
inductive WEv where
  | set (d : Codec)
  | other (op : NOp)
  | call (ms : List (Msg × Order))
  | msg

/-- One step, `nmdc/writer.go:46-54` and `63-84`; `none` if it is not possible, or a panic. -/
def WState.step (C : Deflater D) (s : WState D) : WEv → Option (WState D)
  | .set d => some { s with w := { s.w with enc := d } }
  | .other op =>
    match s.phase, op with
    | .idle, .msgs _ => none
    | .idle, .setEncoder _ => none
    | .idle, op =>
      match s.w.step C op with
      | .val (e, w) => some { s with w := w, results := s.results ++ [e] }
      | _ => none
    | _, _ => none
  | .call ms =>
    match s.phase with
    | .idle =>
      match s.w.lines.err with
      | some e => some { s with results := s.results ++ [some e] }
      | none => some { s with phase := .writing s.w.enc ms }
    | _ => none
  | .msg =>
    match s.phase with
    | .writing _ [] => some { s with phase := .idle, results := s.results ++ [none] }
    | .writing enc ((m, ord) :: ms) =>
      match runAll m s.w.onMessage with
      | .fail e => some { s with phase := .idle, results := s.results ++ [some e] }
      | .drop => some { s with phase := .idle, results := s.results ++ [none] }
      | .accept =>
        match marshalTo enc ord [] m with
        | .panic => none
        | .err e => some { s with phase := .idle, results := s.results ++ [some e] }
        | .ok l =>
          match s.w.lines.writeLine C l with
          | .val (some e, lw) => some { w := { s.w with lines := lw }, phase := .idle, results := s.results ++ [some e] }
          | .val (none, lw) => some { s with w := { s.w with lines := lw }, phase := .writing enc ms }
          | _ => none
    | .idle => none

/-- An execution. -/
def WState.run (C : Deflater D) : List WEv → WState D → Option (WState D)
  | [], s => some s
  | e :: es, s =>
    match s.step C e with
    | some s' => WState.run C es s'
    | none => none

end Verif.Nmdc
