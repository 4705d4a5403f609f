import Verif.Adc.Packets
import Verif.Spec.Base32

/-!
# Which lines are ADC packets (specification)

Only the types of the model are used: packets, names of commands, identifiers and selectors.
-/

namespace Verif.Spec.AdcPacket

open Verif.Adc Verif.Tiger

/-- The end of a line with this payload: a space and the payload; with an empty payload the space may be missing. -/
def End (payload tail : Bytes) : Prop := tail = c!" " :: payload ++ b!"\n" ∨ payload = [] ∧ tail = b!"\n"

/-- A line: the letter of its kind, the name of the command, the address, the payload. -/
def Line (p : Bytes) (kind : Byte) (name : MsgType) (address payload : Bytes) : Prop :=
  ∃ tail, End payload tail ∧ p = [kind] ++ name.bytes ++ address ++ tail

/-- Selectors at the front of a text: a sign and four bytes each, whatever they are. Spaces are skipped. The payload begins where
something else follows. -/
inductive Selectors : Bytes → List FeatureSel → Bytes → Prop
  | done {d : Bytes} (h : ∀ c, d.head? = some c → c ≠ c!"+" ∧ c ≠ c!"-" ∧ c ≠ c!" ") : Selectors d [] d
  | space {d : Bytes} {sel : List FeatureSel} {rest : Bytes} (h : Selectors d sel rest) : Selectors (c!" " :: d) sel rest
  | plus {d : Bytes} {sel : List FeatureSel} {rest : Bytes} (f : Feature) (h : Selectors d sel rest) :
      Selectors (b!"+" ++ f.bytes ++ d) (⟨f, true⟩ :: sel) rest
  | minus {d : Bytes} {sel : List FeatureSel} {rest : Bytes} (f : Feature) (h : Selectors d sel rest) :
      Selectors (b!"-" ++ f.bytes ++ d) (⟨f, false⟩ :: sel) rest

/-- The line, which has to end with its only newline, is this packet. The last four cases are those of an address that is one byte short:
the newline is taken for its last byte. -/
inductive Accepts (p : Bytes) : Packet → Prop
  | info {name : MsgType} {data : Bytes} : Line p c!"I" name [] data → Accepts p (.info (.raw name data))
  | hub {name : MsgType} {data : Bytes} : Line p c!"H" name [] data → Accepts p (.hub (.raw name data))
  | client {name : MsgType} {data : Bytes} : Line p c!"C" name [] data → Accepts p (.client (.raw name data))
  | broadcast {name : MsgType} {data : Bytes} {id : SID} : Line p c!"B" name (b!" " ++ id.bytes) data →
      Accepts p (.broadcast id (.raw name data))
  | direct {name : MsgType} {data : Bytes} {id to : SID} : Line p c!"D" name (b!" " ++ id.bytes ++ b!" " ++ to.bytes) data →
      Accepts p (.direct id to (.raw name data))
  | echo {name : MsgType} {data : Bytes} {id to : SID} : Line p c!"E" name (b!" " ++ id.bytes ++ b!" " ++ to.bytes) data →
      Accepts p (.echo id to (.raw name data))
  | feature {name : MsgType} {text data : Bytes} {id : SID} {sel : List FeatureSel} : Line p c!"F" name (b!" " ++ id.bytes) text →
      Selectors text sel data → Accepts p (.feature id sel (.raw name data))
  | udp {name : MsgType} {text data : Bytes} {id : CID} : Line p c!"U" name (b!" " ++ text) data → text.length = 39 →
      Base32.Names text id.bytes → Accepts p (.udp id (.raw name data))
  | shortBroadcast {name : MsgType} {id : SID} : p = b!"B" ++ name.bytes ++ b!" " ++ id.bytes → Accepts p (.broadcast id (.raw name []))
  | shortDirect {name : MsgType} {id to : SID} : p = b!"D" ++ name.bytes ++ b!" " ++ id.bytes ++ b!" " ++ to.bytes →
      Accepts p (.direct id to (.raw name []))
  | shortEcho {name : MsgType} {id to : SID} : p = b!"E" ++ name.bytes ++ b!" " ++ id.bytes ++ b!" " ++ to.bytes →
      Accepts p (.echo id to (.raw name []))
  | shortFeature {name : MsgType} {id : SID} : p = b!"F" ++ name.bytes ++ b!" " ++ id.bytes → Accepts p (.feature id [] (.raw name []))

end Verif.Spec.AdcPacket
