import Verif.Props.ZlibFormat
import Verif.Props.AdcConn

/-!
# NMDC and ADC connections with zlib (C34, C47, C120)

The theorems about connections take any compressor and decompressor that fit together.  Here the compressor is any that writes the format
of zlib, and the decompressor is the one of the Go standard library.
-/

namespace Verif.Props.ZlibConn

open Verif Verif.Go Verif.Lineproto Verif.Go.Inflate Verif.Go.Deflate Verif.Props.ZlibFormat Verif.Props.LineReader

/-- **C120.** NMDC: all messages arrive, also those in compressed phases, whatever the compressor chooses to write. -/
theorem nmdc [HtmlEntities] {P : ZPlan} (hP : P.Ok) (left : Nmdc.Codec → Nmdc.Msg → Bytes → Nmdc.Msg) (size : Int)
    (tmo : List (Option Err)) (script : List SEv) (enc dec : Nmdc.Codec) (ps : List NmdcConn.Phase) (final : List Nmdc.NOp)
    (hq : NmdcConn.QuietPhases ps final) (max maxCmdName : Int) (hmax : max ≤ 0 ∨ 5 ≤ max) (hcmd : 3 ≤ maxCmdName)
    (img : Nmdc.Msg × Nmdc.Order → Nmdc.Msg)
    (ht : ∀ x ∈ NmdcConn.sentMsgs (NmdcConn.callsOf ps final), NmdcConn.Travels enc dec maxCmdName x (img x) ∧ NmdcConn.Short enc max x)
    {es : List (Option Err)} {w w' : Nmdc.NWriter ZComp}
    (hrun : Nmdc.NWriter.run (zlibDeflater P) (NmdcConn.callsOf ps final) { Nmdc.newNWriter size tmo ⟨[], script⟩ with enc } = .val (es, w))
    (hok : ∀ e ∈ es, e = none) (hf : w.step (zlibDeflater P) .flush = .val (none, w'))
    (cs : List Bytes) (hcs : ∀ c ∈ cs, c ≠ []) (hsent : cs.flatten = w'.lines.sink.sent) (sched : List (Nat × Bool)) :
    ∃ r', NmdcConn.MsgSession zlibInflater left
      { lines := (newReader (chunks cs) Nmdc.delim).setMaxLine max, dec, maxCmdName }
      (NmdcConn.received img sched ps final ++ [.msg (.error .eof)]) r' :=
  NmdcConn.connection (zlibDeflater P) zlibInflater left (fits hP) size tmo script enc dec ps final hq max maxCmdName hmax hcmd img ht hrun
    hok hf cs hcs hsent sched

/-- **C120.** ADC: each call gets what it makes of its packet, also in compressed phases, whatever the compressor chooses to write. -/
theorem adc [Adc.ParseFloat] {P : ZPlan} (hP : P.Ok) (size : Int) (tmo : List (Option Err)) (script : List SEv)
    (ps : List AdcConn.Phase) (final : List Adc.AOp) (hq : AdcConn.QuietPhases ps final) (max : Int)
    (ht : ∀ p ∈ AdcConn.allSent ps final, AdcConn.Fits max p) {es : List (Option Err)} {w w' : Writer ZComp}
    (hrun : Adc.aRun (zlibDeflater P) (AdcConn.callsOf ps final) (newWriter size tmo ⟨[], script⟩) = .val (es, w)) (hok : ∀ e ∈ es, e = none)
    (hf : Adc.aStep (zlibDeflater P) .flush w = .val (none, w'))
    (cs : List Bytes) (hcs : ∀ c ∈ cs, c ≠ []) (hsent : cs.flatten = w'.sink.sent)
    (sched : List (Nat × Bool)) (obs : List AdcConn.AObs) (hobs : AdcConn.Received sched ps final obs) (c : Adc.Call) (room : Nat) :
    ∃ r', AdcConn.ASession zlibInflater { lines := (newReader (chunks cs) c!"\n").setMaxLine max } (obs ++ [.call c room (.error .eof)]) r' :=
  AdcConn.connection (zlibDeflater P) zlibInflater (fits hP) size tmo script ps final hq max ht hrun hok hf cs hcs hsent sched obs hobs c room

/-- An NMDC conversation with a compressed phase: all calls succeed. The remaining hypotheses are met as shown beside `NmdcConn.connection`. -/
example : letI := basicEntities
    let ps : List NmdcConn.Phase := [⟨[.keepAlive, .msgs [(.name .hello b!"joe", id), (.chat ⟨b!"joe", b!"$5 | ok"⟩, id)]], 6,
      [.msgs [(.noArgs .getPass, id)], .flush, .keepAlive]⟩]
    let final : List Nmdc.NOp := [.msgs [(.chat ⟨[], b!"hub restarts"⟩, id)]]
    (match Nmdc.NWriter.run (zlibDeflater literalPlan) (NmdcConn.callsOf ps final) (Nmdc.newNWriter 3 [] ⟨[], []⟩) with
    | .val (es, w) => es.all (·.isNone) && (match w.step (zlibDeflater literalPlan) .flush with
      | .val (none, w') => (b!"|$Hello joe|<joe> &#36;5 &#124; ok|$ZOn|" ++ [0x78, 0x9c]).isPrefixOf w'.lines.sink.sent
      | _ => false)
    | _ => false) = true := by
  decide +kernel

/-- An ADC conversation with a compressed phase: all calls succeed. -/
example :
    let ps : List AdcConn.Phase := [⟨[.keepAlive, .packet AdcConn.line1], AdcConn.line2, 6, [.message .client (.status ⟨1, 20, b!"odd"⟩), .flush, .keepAlive]⟩]
    let final : List Adc.AOp := [.message .info (.status ⟨0, 0, b!"plain again"⟩)]
    (match Adc.aRun (zlibDeflater literalPlan) (AdcConn.callsOf ps final) (newWriter 3 [] ⟨[], []⟩) with
    | .val (es, w) => es.all (·.isNone) && (match Adc.aStep (zlibDeflater literalPlan) .flush w with
      | .val (none, w') => (b!"\nBMSG AAAB hello\\sall\nISTA 000 compressed\\sfrom\\shere\\son\n" ++ [0x78, 0x9c]).isPrefixOf w'.sink.sent
      | _ => false)
    | _ => false) = true := by
  decide +kernel

end Verif.Props.ZlibConn
