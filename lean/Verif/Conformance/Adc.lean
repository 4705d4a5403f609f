import Verif.Adc.Packets

/-!
# The test vectors of `adc/*_test.go`, run on the model

As in `Verif.Conformance.Nmdc`: each example is one entry of a table in the test files.
-/

namespace Verif.Conformance.Adc

open Verif.Go Verif.Adc Verif.Tiger

set_option maxRecDepth 4000

/-- None of the entries needs a floating point number. -/
local instance : ParseFloat := ⟨fun _ => .bad⟩

/-- `types.MustParseCID`. -/
def cid (s : Bytes) : Hash := match Hash.fromBase32 s with
  | .ok h => h
  | _ => .zero

/-- The zero value of the type of a message, `reflect.New`. -/
def fresh : Msg → Msg
  | .struct t _ => t.new
  | .get _ => .get ⟨[], [], 0, 0, false⟩
  | .snd _ => .snd ⟨[], [], 0, 0, false⟩
  | .getPassword _ => .getPassword []
  | m => m

/-- `doMessageTestUnmarshal` and `doMessageTestMarshal`, `adc/marshal_test.go:41-60`. -/
def Entry (data : Bytes) (m : Msg) : Prop := (fresh m).unmarshalTo data = .ok m ∧ m.marshal = .ok data

/-! `TestSIDMarshal`, `adc/marshal_test.go:12-27`. -/

example : (sidFromInt 2).marshal = b!"AAAC" := by decide +kernel
example : (sidFromInt 34).marshal = b!"AABC" := by decide +kernel

/-! `adc/chat_test.go`, `adc/connect_test.go`. -/

example : Entry b!"some\\stext"
    (.struct .chat (b!"some text", none, false, (0 : Int), ())) := by
  constructor <;> with_unfolding_all rfl
example : Entry b!"some\\stext PMAAAB"
    (.struct .chat (b!"some text", some ⟨b!"AAAB", rfl⟩, false, (0 : Int), ())) := by
  constructor <;> with_unfolding_all rfl
example : Entry b!"some\\stext ME1"
    (.struct .chat (b!"some text", none, true, (0 : Int), ())) := by
  constructor <;> with_unfolding_all rfl
example : Entry b!"ADC/1.0 3000 1298498081"
    (.struct .connect (b!"ADC/1.0", (3000 : Int), b!"1298498081", ())) := by
  constructor <;> with_unfolding_all rfl
example : Entry b!"ADC/1.0 12345678"
    (.struct .revConnect (b!"ADC/1.0", b!"12345678", ())) := by
  constructor <;> with_unfolding_all rfl

/-! `adc/files_test.go`. -/

example : Entry b!"file TTH/BR4BVJBMHDFVCFI4WBPSL63W5TWXWVBSC574BLI 124 12352"
    (.get ⟨b!"file", b!"TTH/BR4BVJBMHDFVCFI4WBPSL63W5TWXWVBSC574BLI", 124, 12352, false⟩) := by
  constructor <;> with_unfolding_all rfl
example : Entry b!"file TTH/BR4BVJBMHDFVCFI4WBPSL63W5TWXWVBSC574BLI 124 12352 ZL1"
    (.get ⟨b!"file", b!"TTH/BR4BVJBMHDFVCFI4WBPSL63W5TWXWVBSC574BLI", 124, 12352, true⟩) := by
  constructor <;> with_unfolding_all rfl
example : Entry b!"tthl TTH/BR4BVJBMHDFVCFI4WBPSL63W5TWXWVBSC574BLI 124 12352"
    (.get ⟨b!"tthl", b!"TTH/BR4BVJBMHDFVCFI4WBPSL63W5TWXWVBSC574BLI", 124, 12352, false⟩) := by
  constructor <;> with_unfolding_all rfl
example : Entry b!"file TTH/BR4BVJBMHDFVCFI4WBPSL63W5TWXWVBSC574BLI 124 12352 ZL1"
    (.snd ⟨b!"file", b!"TTH/BR4BVJBMHDFVCFI4WBPSL63W5TWXWVBSC574BLI", 124, 12352, true⟩) := by
  constructor <;> with_unfolding_all rfl

/-! `adc/hub_test.go`; the hash of the password is computed by Tiger, which is a parameter, so the text is decoded instead. -/

example : Entry b!"ADCH++/Hub\\smanagement/Reload\\sscripts TTHMSG\\s+reload\\n CT3"
    (.struct .userCommand ([b!"ADCH++", b!"Hub management", b!"Reload scripts"], b!"HMSG +reload\n", (3 : Int), (0 : Int), (0 : Int), (0 : Int), ())) := by
  constructor <;> with_unfolding_all rfl
example : Entry b!"AAAQEAYEAUDAOCAJAAAQEAYCAMCAKBQHBAEQAAI"
    (.getPassword [0, 1, 2, 3, 4, 5, 6, 7, 8, 9, 0, 1, 2, 3, 2, 3, 4, 5, 6, 7, 8, 9, 0, 1]) := by
  constructor <;> with_unfolding_all rfl
example : Entry b!"ABZCJESSJKVMIL2BDERHSJ7RF5IYI6ZX2QAOQGI"
    (.struct .password (cid b!"ABZCJESSJKVMIL2BDERHSJ7RF5IYI6ZX2QAOQGI", ())) := by
  constructor <;> with_unfolding_all rfl

/-! `adc/search_test.go`. -/

example : Entry b!"TOtok FNfilepath SI1234567 SL3"
    (.struct .result (b!"tok", b!"filepath", (1234567 : Int), (3 : Int), none, ())) := by
  constructor <;> with_unfolding_all rfl
example : Entry b!"TO4171511714 ANsome ANdata GR32"
    (.struct .search (b!"4171511714", [b!"some", b!"data"], [], [], (0 : Int), (0 : Int), (0 : Int), (0 : Int), none, (32 : Int), [], ())) := by
  constructor <;> with_unfolding_all rfl
example : Entry b!"TO4171511714 GR32"
    (.struct .search (b!"4171511714", [], [], [], (0 : Int), (0 : Int), (0 : Int), (0 : Int), none, (32 : Int), [], ())) := by
  constructor <;> with_unfolding_all rfl
example : Entry b!"TO4171511714 ANsome ANdata"
    (.struct .search (b!"4171511714", [b!"some", b!"data"], [], [], (0 : Int), (0 : Int), (0 : Int), (0 : Int), none, (0 : Int), [], ())) := by
  constructor <;> with_unfolding_all rfl

/-! `adc/user_test.go`. -/

example : Entry b!"IDHVBNEMDCTKCD4V3N54X4MMOVLJLJL6PSKVHFXHI NIgopher I4172.17.42.1 SS39542721391 SF34 VEGoConn\\s0.01 SL3 FS0 HN0 HR0 HO0 SUGCON,ADC0"
    (.struct .userInfo (cid b!"HVBNEMDCTKCD4V3N54X4MMOVLJLJL6PSKVHFXHI", none, b!"gopher", b!"172.17.42.1", [], (0 : Int), (0 : Int), (39542721391 : Int), (34 : Int), b!"GoConn 0.01", [], [], [], (3 : Int), (0 : Int), (0 : Int), [], [], (0 : Int), (0 : Int), (0 : Int), [], (0 : Int), (0 : Int), [], [⟨b!"GCON", rfl⟩, ⟨b!"ADC0", rfl⟩], [], [], ())) := by
  constructor <;> with_unfolding_all rfl
example : Entry b!"IDHVBNEMDCTKCD4V3N54X4MMOVLJLJL6PSKVHFXHI PDHVBNEMDCTKCD4V3N54X4MMOVLJLJL6PSKVHFXHI NIgopher I4172.17.42.1 SS39542721391 SF34 VEGoConn\\s0.01 SL3 FS0 HN0 HR0 HO0 SUGCON,ADC0"
    (.struct .userInfo (cid b!"HVBNEMDCTKCD4V3N54X4MMOVLJLJL6PSKVHFXHI", some (cid b!"HVBNEMDCTKCD4V3N54X4MMOVLJLJL6PSKVHFXHI"), b!"gopher", b!"172.17.42.1", [], (0 : Int), (0 : Int), (39542721391 : Int), (34 : Int), b!"GoConn 0.01", [], [], [], (3 : Int), (0 : Int), (0 : Int), [], [], (0 : Int), (0 : Int), (0 : Int), [], (0 : Int), (0 : Int), [], [⟨b!"GCON", rfl⟩, ⟨b!"ADC0", rfl⟩], [], [], ())) := by
  constructor <;> with_unfolding_all rfl
example : Entry b!"IDKAY6BI76T6XFIQXZNRYE4WXJ2Y3YGXJG7UM7XLI NIuser I4172.17.42.1 U43000 SS25146919163 SF23 VEEiskaltDC++\\s2.2.9 US1310720 SL3 FS3 HN11 HR0 HO1 SUSEGA,ADC0,TCP4,UDP4 KPSHA256/C44JWX62IN6JBAVH7NIHEZIQ6WSNQ2LHTOWYWP7ADGAYTCPZVWRQ"
    (.struct .userInfo (cid b!"KAY6BI76T6XFIQXZNRYE4WXJ2Y3YGXJG7UM7XLI", none, b!"user", b!"172.17.42.1", [], (3000 : Int), (0 : Int), (25146919163 : Int), (23 : Int), b!"EiskaltDC++ 2.2.9", [], b!"1310720", [], (3 : Int), (3 : Int), (0 : Int), [], [], (11 : Int), (0 : Int), (1 : Int), [], (0 : Int), (0 : Int), [], [⟨b!"SEGA", rfl⟩, ⟨b!"ADC0", rfl⟩, ⟨b!"TCP4", rfl⟩, ⟨b!"UDP4", rfl⟩], b!"SHA256/C44JWX62IN6JBAVH7NIHEZIQ6WSNQ2LHTOWYWP7ADGAYTCPZVWRQ", [], ())) := by
  constructor <;> with_unfolding_all rfl
example : Entry b!"NI SS34815324082 SF8416 VE SL0 FS1 HN18 HR0 HO2 SUNAT0,ADC0,SEGA"
    (.struct .userInfo (Hash.zero, none, [], [], [], (0 : Int), (0 : Int), (34815324082 : Int), (8416 : Int), [], [], [], [], (0 : Int), (1 : Int), (0 : Int), [], [], (18 : Int), (0 : Int), (2 : Int), [], (0 : Int), (0 : Int), [], [⟨b!"NAT0", rfl⟩, ⟨b!"ADC0", rfl⟩, ⟨b!"SEGA", rfl⟩], [], [], ())) := by
  constructor <;> with_unfolding_all rfl

/-- `TestDecodePacket` and `TestEncodePacket`, `adc/packets_test.go:186-205`. -/
def PacketEntry (data : Bytes) (p : Packet) : Prop :=
  (∀ room, decodePacketRaw room (data ++ b!"\n") = .ok p) ∧ p.marshal = .ok (data ++ b!"\n")

/-- The payload of most entries. -/
def pay : Bytes := b!"IDKAY6BI76T6XFIQXZNRYE4WXJ2Y3YGXJG7UM7XLI NIuser"

/-! `adc/packets_test.go:13-184`. -/

example : PacketEntry b!"BINF AAAB"
    (.broadcast ⟨b!"AAAB", rfl⟩ (.raw ⟨b!"INF", rfl⟩ [])) := by
  constructor <;> first | (intro room; with_unfolding_all rfl) | with_unfolding_all rfl
example : PacketEntry b!"BINF AAAB IDKAY6BI76T6XFIQXZNRYE4WXJ2Y3YGXJG7UM7XLI NIuser"
    (.broadcast ⟨b!"AAAB", rfl⟩ (.raw ⟨b!"INF", rfl⟩ pay)) := by
  constructor <;> first | (intro room; with_unfolding_all rfl) | with_unfolding_all rfl
example : PacketEntry b!"CINF IDKAY6BI76T6XFIQXZNRYE4WXJ2Y3YGXJG7UM7XLI NIuser"
    (.client (.raw ⟨b!"INF", rfl⟩ pay)) := by
  constructor <;> first | (intro room; with_unfolding_all rfl) | with_unfolding_all rfl
example : PacketEntry b!"IINF"
    (.info (.raw ⟨b!"INF", rfl⟩ [])) := by
  constructor <;> first | (intro room; with_unfolding_all rfl) | with_unfolding_all rfl
example : PacketEntry b!"IINF IDKAY6BI76T6XFIQXZNRYE4WXJ2Y3YGXJG7UM7XLI NIuser"
    (.info (.raw ⟨b!"INF", rfl⟩ pay)) := by
  constructor <;> first | (intro room; with_unfolding_all rfl) | with_unfolding_all rfl
example : PacketEntry b!"HINF IDKAY6BI76T6XFIQXZNRYE4WXJ2Y3YGXJG7UM7XLI NIuser"
    (.hub (.raw ⟨b!"INF", rfl⟩ pay)) := by
  constructor <;> first | (intro room; with_unfolding_all rfl) | with_unfolding_all rfl
example : PacketEntry b!"DCTM AAAA BBBB"
    (.direct ⟨b!"AAAA", rfl⟩ ⟨b!"BBBB", rfl⟩ (.raw ⟨b!"CTM", rfl⟩ [])) := by
  constructor <;> first | (intro room; with_unfolding_all rfl) | with_unfolding_all rfl
example : PacketEntry b!"DCTM AAAA BBBB IDKAY6BI76T6XFIQXZNRYE4WXJ2Y3YGXJG7UM7XLI NIuser"
    (.direct ⟨b!"AAAA", rfl⟩ ⟨b!"BBBB", rfl⟩ (.raw ⟨b!"CTM", rfl⟩ pay)) := by
  constructor <;> first | (intro room; with_unfolding_all rfl) | with_unfolding_all rfl
example : PacketEntry b!"EMSG AAAA BBBB IDKAY6BI76T6XFIQXZNRYE4WXJ2Y3YGXJG7UM7XLI NIuser"
    (.echo ⟨b!"AAAA", rfl⟩ ⟨b!"BBBB", rfl⟩ (.raw ⟨b!"MSG", rfl⟩ pay)) := by
  constructor <;> first | (intro room; with_unfolding_all rfl) | with_unfolding_all rfl
example : PacketEntry b!"UINF KAY6BI76T6XFIQXZNRYE4WXJ2Y3YGXJG7UM7XLI"
    (.udp (cid b!"KAY6BI76T6XFIQXZNRYE4WXJ2Y3YGXJG7UM7XLI") (.raw ⟨b!"INF", rfl⟩ [])) := by
  constructor <;> first | (intro room; with_unfolding_all rfl) | with_unfolding_all rfl
example : PacketEntry b!"UINF KAY6BI76T6XFIQXZNRYE4WXJ2Y3YGXJG7UM7XLI IDKAY6BI76T6XFIQXZNRYE4WXJ2Y3YGXJG7UM7XLI NIuser"
    (.udp (cid b!"KAY6BI76T6XFIQXZNRYE4WXJ2Y3YGXJG7UM7XLI") (.raw ⟨b!"INF", rfl⟩ pay)) := by
  constructor <;> first | (intro room; with_unfolding_all rfl) | with_unfolding_all rfl
example : PacketEntry b!"FINF AAAB"
    (.feature ⟨b!"AAAB", rfl⟩ [] (.raw ⟨b!"INF", rfl⟩ [])) := by
  constructor <;> first | (intro room; with_unfolding_all rfl) | with_unfolding_all rfl
example : PacketEntry b!"FINF AAAB IDKAY6BI76T6XFIQXZNRYE4WXJ2Y3YGXJG7UM7XLI NIuser"
    (.feature ⟨b!"AAAB", rfl⟩ [] (.raw ⟨b!"INF", rfl⟩ pay)) := by
  constructor <;> first | (intro room; with_unfolding_all rfl) | with_unfolding_all rfl
example : PacketEntry b!"FINF AAAB +SEGA -NAT0"
    (.feature ⟨b!"AAAB", rfl⟩ [⟨⟨b!"SEGA", rfl⟩, true⟩, ⟨⟨b!"NAT0", rfl⟩, false⟩] (.raw ⟨b!"INF", rfl⟩ [])) := by
  constructor <;> first | (intro room; with_unfolding_all rfl) | with_unfolding_all rfl
example : PacketEntry b!"FINF AAAB +SEGA -NAT0 IDKAY6BI76T6XFIQXZNRYE4WXJ2Y3YGXJG7UM7XLI NIuser"
    (.feature ⟨b!"AAAB", rfl⟩ [⟨⟨b!"SEGA", rfl⟩, true⟩, ⟨⟨b!"NAT0", rfl⟩, false⟩] (.raw ⟨b!"INF", rfl⟩ pay)) := by
  constructor <;> first | (intro room; with_unfolding_all rfl) | with_unfolding_all rfl

end Verif.Conformance.Adc
