import Verif.Lineproto.Writer
import Verif.Nmdc.Message
import Verif.Nmdc.Reader

/-!
# The NMDC writer, `nmdc/writer.go`

The callbacks of `OnMessage` do not change the message, the line or the writer.  A message is given together with the order
in which Go visits its map of extra fields (only `MyINFO` has one); every call may use another order.
-/

namespace Verif.Nmdc

open Verif.Go Verif.Lineproto

variable [HtmlEntities] {D : Type} (C : Deflater D)

/-- The order in which a map is visited. -/
abbrev Order := StrMap → StrMap

/-- `nmdc/writer.go:25-35`. The buffer `mbuf` is reset before each use. -/
structure NWriter (D : Type) where
  lines : Writer D
  enc : Codec := none
  onMessage : List (Msg → Hook) := []

/-- `NewWriter`, `NewWriterSize`, `nmdc/writer.go:13-22`. -/
def newNWriter (size : Int) (tmo : List (Option Err)) (s : Sink) : NWriter D := { lines := newWriter size tmo s }

/-- A call that goes to the embedded line writer. -/
def NWriter.lift (w : NWriter D) : Exec (Option Err × Writer D) → Exec (Option Err × NWriter D)
  | .panic => .panic
  | .timeout => .timeout
  | .val (e, lw) => .val (e, { w with lines := lw })

/-- `nmdc/writer.go:58-60`. -/
def NWriter.writeKeepAlive (w : NWriter D) : Exec (Option Err × NWriter D) := w.lift (w.lines.writeLine C [delim])

/-- The loop of `WriteMsg`, `nmdc/writer.go:67-83`. A hook that answers `(false, nil)` ends the call. -/
def NWriter.writeLoop : List (Msg × Order) → NWriter D → Exec (Option Err × NWriter D)
  | [], w => .val (none, w)
  | (m, ord) :: ms, w =>
    match runAll m w.onMessage with
    | .fail e => .val (some e, w)
    | .drop => .val (none, w)
    | .accept =>
      match marshalTo w.enc ord [] m with
      | .panic => .panic
      | .err e => .val (some e, w)
      | .ok l =>
        match w.lines.writeLine C l with
        | .panic => .panic
        | .timeout => .timeout
        | .val (some e, lw) => .val (some e, { w with lines := lw })
        | .val (none, lw) => writeLoop ms { w with lines := lw }

/-- `WriteMsg`, `nmdc/writer.go:63-84`. -/
def NWriter.writeMsg (ms : List (Msg × Order)) (w : NWriter D) : Exec (Option Err × NWriter D) :=
  match w.lines.err with
  | some e => .val (some e, w)
  | none => w.writeLoop C ms

/-- `ZOnLevel`, `nmdc/writer.go:92-98`; `ZOn` (87-89) is level -1. -/
def NWriter.zOn (lvl : Int) (w : NWriter D) : Exec (Option Err × NWriter D) :=
  match w.lines.writeLine C b!"$ZOn|" with
  | .panic => .panic
  | .timeout => .timeout
  | .val (some e, lw) => .val (some e, { w with lines := lw })
  | .val (none, lw) => NWriter.lift { w with lines := lw } (lw.enableZlib C lvl)

/-- The calls a user can make. `Flush`, `DisableZlib` and `Close` are those of the embedded line writer. -/
inductive NOp where
  | keepAlive
  | msgs (ms : List (Msg × Order))
  | flush
  | zOn (lvl : Int)
  | zOff
  | close
  | onMessage (h : Msg → Hook)
  | setEncoder (enc : Codec)

/-- One call and its error; `OnMessage` and `SetEncoder` are `nmdc/writer.go:41-43` and `52-54`. -/
def NWriter.step (op : NOp) (w : NWriter D) : Exec (Option Err × NWriter D) :=
  match op with
  | .keepAlive => w.writeKeepAlive C
  | .msgs ms => w.writeMsg C ms
  | .flush => w.lift (w.lines.flush C)
  | .zOn lvl => w.zOn C lvl
  | .zOff => w.lift (w.lines.disableZlib C)
  | .close => w.lift (w.lines.close C)
  | .onMessage h => .val (none, { w with onMessage := w.onMessage ++ [h] })
  | .setEncoder enc => .val (none, { w with enc := enc })

/-- A history of calls with their errors. -/
def NWriter.run : List NOp → NWriter D → Exec (List (Option Err) × NWriter D)
  | [], w => .val ([], w)
  | op :: ops, w =>
    match w.step C op with
    | .panic => .panic
    | .timeout => .timeout
    | .val (e, w) =>
      match NWriter.run ops w with
      | .panic => .panic
      | .timeout => .timeout
      | .val (es, w) => .val (e :: es, w)

end Verif.Nmdc
