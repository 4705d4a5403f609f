import Verif.Adc.Left

/-!
# Worked instances: what a refused payload leaves in an ADC message

The values were worked out by hand from `adc/marshal.go:43-159`, `adc/files.go:59-105`, `adc/hub.go:84-89`, `adc/messages.go:127-148` and
`adc/types.go:122-152`.
-/

namespace Verif.Conformance.AdcLeft

open Verif.Go Verif.Adc Verif.Tiger

variable [ParseFloat]

/-- Message and outcome. -/
macro "run" : tactic => `(tactic| with_unfolding_all rfl)

/-- A request as it was before. -/
def old : GetRequest := ⟨b!"list", b!"/", 10, 20, false⟩

-- file requests, from the first field to the last
example : (Msg.get old).fill b!"file" = (.get old, .err (.other 108)) := by run
example : (Msg.get old).fill b!"fi\\sle p" = (.get { old with typ := b!"fi le" }, .err (.other 109)) := by run
example : (Msg.snd old).fill b!"file a\\nb 3" = (.snd { old with typ := b!"file", path := b!"a\nb" }, .err (.other 110)) := by run
example : (Msg.get old).fill b!"file p x 7" = (.get { old with typ := b!"file", path := b!"p", start := 0 }, .err (.other 111)) := by run
example : (Msg.get old).fill b!"file p 9223372036854775808 7" =
    (.get { old with typ := b!"file", path := b!"p", start := 9223372036854775807 }, .err (.other 111)) := by run
example : (Msg.get old).fill b!"file p -9223372036854775809 7" =
    (.get { old with typ := b!"file", path := b!"p", start := -9223372036854775808 }, .err (.other 111)) := by run
example : (Msg.get old).fill b!"file p -9223372036854775808 " =
    (.get ⟨b!"file", b!"p", -9223372036854775808, 0, false⟩, .err (.other 112)) := by run
example : (Msg.get old).fill b!"file p 1 99999999999999999999x" =
    (.get ⟨b!"file", b!"p", 1, 9223372036854775807, false⟩, .err (.other 112)) := by run
example : (Msg.get old).fill b!"file p 1 9223372036854775808x" = (.get ⟨b!"file", b!"p", 1, 0, false⟩, .err (.other 112)) := by run
example : (Msg.get old).fill b!"file p 1 2 ZL2" = (.get ⟨b!"file", b!"p", 1, 2, false⟩, .err (.other 113)) := by run
example : (Msg.get old).fill b!"file p 1 2 ZL1" = (.get ⟨b!"file", b!"p", 1, 2, true⟩, .ok ()) := by run
example : (Msg.get { old with compressed := true }).fill b!"file p 1 2 " = (.get ⟨b!"file", b!"p", 1, 2, true⟩, .ok ()) := by run

-- status, session identifiers, parameters
example : (Msg.status ⟨1, 2, b!"x"⟩).fill b!"abc text" = (.status ⟨1, 2, b!"x"⟩, .err (.other 107)) := by run
example : (Msg.status ⟨1, 2, b!"x"⟩).fill b!"251" = (.status ⟨2, 51, []⟩, .ok ()) := by run
example : (Msg.sidAssign ⟨b!"AAAA", rfl⟩).fill b!"AAAAA" = (.sidAssign ⟨b!"AAAA", rfl⟩, .err (.other 78)) := by run
example : (Msg.infoMod [⟨b!"NI", rfl, b!"a"⟩]).fill b!"VEx I" = (.infoMod [], .err (.other 106)) := by run
example : (Msg.infoMod [⟨b!"NI", rfl, b!"a"⟩]).fill b!"" = (.infoMod [], .ok ()) := by run

-- the salt: 13 characters have room for 8 bytes, and the first group gives 5 of them
example : (Msg.getPassword b!"old").fill b!"AEBAGBAF!EBAG" = (.getPassword [1, 2, 3, 4, 5, 0, 0, 0], .err (.other 60)) := by run

-- features: those to remove come first
example : (Msg.supported (some [(⟨b!"TIGR", rfl⟩, true)])).fill b!"ADBASE RMTIGR RMX" =
    (.supported (some [(⟨b!"TIGR", rfl⟩, false)]), .err (.other 100)) := by run
example : (Msg.supported none).fill b!"ADX RMTIGR" = (.supported (some [(⟨b!"TIGR", rfl⟩, false)]), .err (.other 100)) := by run

-- structs: the fields before the bad one are set, in the order of the struct and not of the text
example : (Msg.struct .chat (b!"o", none, false, (1 : Int), ())).fill b!"n TS2 PMAB" =
    (.struct .chat (b!"n", none, false, (1 : Int), ()), .err (.other 78)) := by run
example : (Msg.struct .chat (b!"o", none, false, (1 : Int), ())).fill b!"n MEab PMABCD" =
    (.struct .chat (b!"n", some ⟨b!"ABCD", rfl⟩, false, (1 : Int), ()), .err (.other 102)) := by run
example : (Msg.struct .connect (b!"o", (1 : Int), b!"t", ())).fill b!"ADC 5" =
    (.struct .connect (b!"ADC", (5 : Int), b!"t", ()), .panic) := by run
example : (Msg.struct .disconnect (⟨b!"AAAA", rfl⟩, b!"m", ⟨b!"BBBB", rfl⟩, (0 : Int), [], ())).fill b!"CCCC MSx MSy" =
    (.struct .disconnect (⟨b!"CCCC", rfl⟩, b!"m", ⟨b!"BBBB", rfl⟩, (0 : Int), [], ()), .err (.other 104)) := by run
example : (Msg.struct .result (b!"t", b!"p", (1 : Int), (2 : Int), none, ())).fill b!"TRAAA FNq TOu" =
    (.struct .result (b!"u", b!"q", (1 : Int), (2 : Int), none, ()), .err (.other 61)) := by run

-- a password hash keeps what was begun; the last 19 bytes are the old ones
example : ((Msg.struct .password (Hash.zero, ())).fill b!"AEBAGBAF" =
    (.struct .password (⟨[1, 2, 3, 4, 5] ++ List.replicate 19 0, rfl⟩, ()), .err (.other 61))) := by run

-- the path of a command grows even if the command is refused
example : (Msg.struct .userCommand ([b!"a"], b!"o", (1 : Int), (2 : Int), (3 : Int), (4 : Int), ())).fill b!"b/c TTx TTy" =
    (.struct .userCommand ([b!"a", b!"b", b!"c"], b!"o", (1 : Int), (2 : Int), (3 : Int), (4 : Int), ()), .err (.other 104)) := by run

-- single fields: of two values for a type with its own method the first counts; slices are set as a whole, and only if there are values
example : fillTagged [b!"ABCD", b!"EFGH"] .sid ⟨b!"AAAA", rfl⟩ = ((⟨b!"ABCD", rfl⟩ : SID), .ok ()) := by run
example : fillTagged [b!"7", b!"8"] .int (3 : Int) = ((3 : Int), .err (.other 104)) := by run
example : fillTagged [] (.slice .str) [b!"a"] = ([b!"a"], .ok ()) := by run
example : fillTagged [b!"7", b!"8"] (.slice .int) [(3 : Int)] = ([(7 : Int), 8], .ok ()) := by run
example : fillTagged [b!"1", b!"xy"] (.slice .bool) [true, true] = ([true, true], .err (.other 102)) := by run

-- DecodeMessageTo
example : (PacketVal.mk .client none).fillTo (.status ⟨1, 2, []⟩) = (.status ⟨1, 2, []⟩, .err (.other 114)) := by run
example : (PacketVal.mk .client (some .zon)).fillTo .zon = (.zon, .err (.other 114)) := by run
example : (PacketVal.mk .client (some (.raw ⟨b!"SND", rfl⟩ b!"file"))).fillTo (.get old) = (.get old, .err (.other 115)) := by run
example : (PacketVal.mk .client (some (.raw ⟨b!"GET", rfl⟩ b!"x y"))).fillTo (.get old) =
    (.get { old with typ := b!"x" }, .err (.other 109)) := by run

end Verif.Conformance.AdcLeft
