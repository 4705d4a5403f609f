import Verif.Nmdc.Message

/-!
# The test vectors of `nmdc/*_test.go`, run on the model

These examples prove nothing about all inputs. They check that the model agrees with the expectations the maintainers wrote
down for the code: each line is one entry of a table in the test files, decoded and encoded by the model.
-/

namespace Verif.Conformance.Nmdc

open Verif.Go Verif.Nmdc Verif.Tiger

attribute [local instance] basicEntities

/-- `doMessageTestUnmarshal`, `nmdc/messages_test.go:24-37`. -/
def reads (typ data : Bytes) (m : Msg) : Bool := (newMessage typ).unmarshal none data = .ok m

/-- `doMessageTestMarshal`, `nmdc/messages_test.go:39-57`. -/
def writes (m : Msg) (data : Bytes) : Bool := m.marshal none id = .ok data

/-- An entry without `expData`: the text is also what is written. -/
def both (typ data : Bytes) (m : Msg) : Bool := m.typ = typ && reads typ data m && writes m data

/-- An entry with `expData`. -/
def entry (typ data exp : Bytes) (m : Msg) : Bool := m.typ = typ && reads typ data m && writes m exp

/-- `tiger.MustParseBase32`. -/
def h32 (s : Bytes) : Hash := match Hash.fromBase32 s with
  | .ok h => h
  | _ => .zero

/-! `nmdc/msg_chat_test.go`. -/

example : both b!"To:" b!"john From: room $<peter> dogs are more cute"
    (.priv { to := b!"john", frm := b!"room", name := b!"peter", text := b!"dogs are more cute" }) = true := by decide +kernel
example : both b!"To:" b!"user 1 From: room 1 $<user 2> private message"
    (.priv { to := b!"user 1", frm := b!"room 1", name := b!"user 2", text := b!"private message" }) = true := by decide +kernel
example : both b!"MCTo" b!"target $sender some message"
    (.mcTo { to := b!"target", frm := b!"sender", text := b!"some message" }) = true := by decide +kernel
example : both b!"UserCommand" b!"1 3 # Ledokol Menu\\.:: Ranks\\All time user location statistics $<%[mynick]> +cchist"
    (.userCommand { typ := 1, context := 3, path := [b!"# Ledokol Menu", b!".:: Ranks", b!"All time user location statistics"],
                    command := b!"<%[mynick]> +cchist" }) = true := by decide +kernel
example : entry b!"UserCommand" b!"1 3 a\\b\\c$<%[mynick]> +cchist" b!"1 3 a\\b\\c $<%[mynick]> +cchist"
    (.userCommand { typ := 1, context := 3, path := [b!"a", b!"b", b!"c"], command := b!"<%[mynick]> +cchist" }) = true := by
  decide +kernel
example : both b!"UserCommand" b!"255 1" (.userCommand { typ := 255, context := 1 }) = true := by decide +kernel
example : entry b!"UserCommand" b!"255 1 " b!"255 1" (.userCommand { typ := 255, context := 1 }) = true := by decide +kernel
example : entry b!"UserCommand" b!"0 3&#124;" b!"0 3" (.userCommand { typ := 0, context := 3 }) = true := by decide +kernel

/-! `nmdc/msg_ctm_test.go`. -/

example : both b!"ConnectToMe" b!"john 192.168.1.2:412"
    (.connectToMe { targ := b!"john", address := b!"192.168.1.2:412", kind := 0 }) = true := by decide +kernel
example : both b!"ConnectToMe" b!"john 192.168.1.2:412S"
    (.connectToMe { targ := b!"john", address := b!"192.168.1.2:412", kind := 0, secure := true }) = true := by decide +kernel
example : both b!"ConnectToMe" b!"john 192.168.1.2:412N peter"
    (.connectToMe { targ := b!"john", src := b!"peter", address := b!"192.168.1.2:412", kind := 1 }) = true := by decide +kernel
example : both b!"ConnectToMe" b!"john 192.168.1.2:412NS peter"
    (.connectToMe { targ := b!"john", src := b!"peter", address := b!"192.168.1.2:412", kind := 1, secure := true }) = true := by
  decide +kernel
example : both b!"ConnectToMe" b!"john 192.168.1.2:412R"
    (.connectToMe { targ := b!"john", address := b!"192.168.1.2:412", kind := 2 }) = true := by decide +kernel
example : both b!"ConnectToMe" b!"john 192.168.1.2:412RS"
    (.connectToMe { targ := b!"john", address := b!"192.168.1.2:412", kind := 2, secure := true }) = true := by decide +kernel

/-! `nmdc/msg_errors_test.go`, `nmdc/msg_hub_test.go`. -/

example : both b!"Error" b!"message" (.errMsg .error (some b!"message")) = true := by decide +kernel
example : both b!"FailOver" b!"example.com,example.org:5555,adc://example.net:6666"
    (.failOver [b!"example.com", b!"example.org:5555", b!"adc://example.net:6666"]) = true := by decide +kernel

/-! `nmdc/msg_files_test.go`. -/

example : both b!"ADCGET" b!"file files.xml.bz2 0 -1"
    (.adcGet { contentType := b!"file", identifier := b!"files.xml.bz2", start := 0, length := -1 }) = true := by decide +kernel
example : both b!"ADCGET" b!"file TTH/BR4BVJBMHDFVCFI4WBPSL63W5TWXWVBSC574BLI 123523 65"
    (.adcGet { contentType := b!"file", identifier := b!"TTH/BR4BVJBMHDFVCFI4WBPSL63W5TWXWVBSC574BLI", start := 123523,
               length := 65 }) = true := by decide +kernel
example : both b!"ADCGET" b!"tthl TTH/PT2BL57H4JJ5LHXBDA6CJ5KEOO5XEKNIFYINE7I 6342 7323"
    (.adcGet { contentType := b!"tthl", identifier := b!"TTH/PT2BL57H4JJ5LHXBDA6CJ5KEOO5XEKNIFYINE7I", start := 6342,
               length := 7323 }) = true := by decide +kernel
example : both b!"ADCGET" b!"file TTH/BR4BVJBMHDFVCFI4WBPSL63W5TWXWVBSC574BLI 123523 65 ZL1"
    (.adcGet { contentType := b!"file", identifier := b!"TTH/BR4BVJBMHDFVCFI4WBPSL63W5TWXWVBSC574BLI", start := 123523,
               length := 65, compressed := true }) = true := by decide +kernel
example : both b!"ADCGET" b!"file TTH/BR4BVJBMHDFVCFI4WBPSL63W5TWXWVBSC574BLI 123523 65 ZL1 DB15"
    (.adcGet { contentType := b!"file", identifier := b!"TTH/BR4BVJBMHDFVCFI4WBPSL63W5TWXWVBSC574BLI", start := 123523,
               length := 65, compressed := true, downloaded := some 15 }) = true := by decide +kernel
example : both b!"ADCGET" b!"file TTH/BR4BVJBMHDFVCFI4WBPSL63W5TWXWVBSC574BLI 123523 65 DB15"
    (.adcGet { contentType := b!"file", identifier := b!"TTH/BR4BVJBMHDFVCFI4WBPSL63W5TWXWVBSC574BLI", start := 123523,
               length := 65, downloaded := some 15 }) = true := by decide +kernel
example : both b!"ADCSND" b!"file TTH/BR4BVJBMHDFVCFI4WBPSL63W5TWXWVBSC574BLI 123523 65"
    (.adcSnd { contentType := b!"file", identifier := b!"TTH/BR4BVJBMHDFVCFI4WBPSL63W5TWXWVBSC574BLI", start := 123523,
               length := 65 }) = true := by decide +kernel
example : both b!"ADCSND" b!"tthl TTH/PT2BL57H4JJ5LHXBDA6CJ5KEOO5XEKNIFYINE7I 6342 7323"
    (.adcSnd { contentType := b!"tthl", identifier := b!"TTH/PT2BL57H4JJ5LHXBDA6CJ5KEOO5XEKNIFYINE7I", start := 6342,
               length := 7323 }) = true := by decide +kernel
example : both b!"Direction" b!"Download 12343" (.direction { upload := false, number := 12343 }) = true := by decide +kernel
example : both b!"Direction" b!"Upload 6533" (.direction { upload := true, number := 6533 }) = true := by decide +kernel

/-! `nmdc/msg_lock_test.go`. -/

example : both b!"Lock" b!"EXTENDEDPROTOCOLABCABCABCABCABCABC" (.lock { lock := b!"ABCABCABCABCABCABC" }) = true := by
  decide +kernel
example : both b!"Lock" b!"EXTENDEDPROTOCOLABCABCABCABCABCABC Ref=dchub://example.org:411"
    (.lock { lock := b!"ABCABCABCABCABCABC", ref := b!"dchub://example.org:411" }) = true := by decide +kernel
example : both b!"Lock" b!"EXTENDEDPROTOCOLABCABCABCABCABCABC Pk=DCPLUSPLUS0.777"
    (.lock { lock := b!"ABCABCABCABCABCABC", pk := b!"DCPLUSPLUS0.777" }) = true := by decide +kernel
example : both b!"Lock" b!"EXTENDEDPROTOCOLABCABCABCABCABCABC Pk=DCPLUSPLUS0.777Ref=dchub://example.org:411"
    (.lock { lock := b!"ABCABCABCABCABCABC", pk := b!"DCPLUSPLUS0.777", ref := b!"dchub://example.org:411" }) = true := by
  decide +kernel

/-- `TestLockKey`, `nmdc/msg_lock_test.go:64-73`. -/
example : Lock.customKey { lock := b!"_verlihub", pk := b!"version0.9.8e-r2" } 5 false =
    .ok [0x75, 0xd1, 0xc0, 0x11, 0xb0, 0xa0, 0x10, 0x10, 0x41, 0x20, 0xd1, 0xb1, 0xb1, 0xc0, 0xc0, 0x30, 0x31, 0x92, 0x31, 0x71, 0xe1, 0x50, 0x10, 0xd1, 0x71] := by
  decide +kernel

/-! `nmdc/msg_ping_test.go`. -/

example : entry b!"HubINFO" b!"OZERKI$dc.ozerki.pro$Main Russian D�++ Hub$5000$0$1$2721$PtokaX$"
    b!"OZERKI$dc.ozerki.pro$Main Russian D�++ Hub$5000$0$1$2721$PtokaX$$$"
    (.hubINFO { name := b!"OZERKI", host := b!"dc.ozerki.pro", desc := b!"Main Russian D�++ Hub", i1 := 5000, i2 := 0, i3 := 1,
                i4 := 2721, soft := { name := b!"PtokaX" } }) = true := by decide +kernel
example : entry b!"HubINFO"
    b!"Angels vs Demons$dc.milenahub.ru$Cogitationis poenam nemo patitur.$20480$0$0$0$Verlihub 1.1.0.12$=FAUST= & KCAHDEP$Public HUB$CP1251"
    b!"Angels vs Demons$dc.milenahub.ru$Cogitationis poenam nemo patitur.$20480$0$0$0$Verlihub 1.1.0.12$=FAUST= &amp; KCAHDEP$Public HUB$CP1251"
    (.hubINFO { name := b!"Angels vs Demons", host := b!"dc.milenahub.ru", desc := b!"Cogitationis poenam nemo patitur.",
                i1 := 20480, soft := { name := b!"Verlihub", version := b!"1.1.0.12" }, owner := b!"=FAUST= & KCAHDEP",
                state := b!"Public HUB", encoding := b!"CP1251" }) = true := by decide +kernel
example : entry b!"HubINFO"
    b!"hub name$dc.example.com:8000$hub desc$3000$32212254720$3$40$YnHub 1.0364$owner$desc 2$admin@example.com$"
    b!"hub name$dc.example.com:8000$hub desc$3000$32212254720$3$40$YnHub 1.0364$owner$desc 2$"
    (.hubINFO { name := b!"hub name", host := b!"dc.example.com:8000", desc := b!"hub desc", i1 := 3000, i2 := 32212254720,
                i3 := 3, i4 := 40, soft := { name := b!"YnHub", version := b!"1.0364" }, owner := b!"owner",
                state := b!"desc 2" }) = true := by decide +kernel

/-! `nmdc/msg_search_test.go`. -/

example : both b!"Search" b!"192.168.1.5:412 T?T?500000?1?Gentoo$2005"
    (.search { address := b!"192.168.1.5:412", sizeRestricted := true, isMaxSize := true, size := 500000, dataType := 1,
               pattern := b!"Gentoo 2005" }) = true := by decide +kernel
example : both b!"Search" b!"Hub:SomeNick F?T?0?9?TTH:TO32WPD6AQE7VA7654HEAM5GKFQGIL7F2BEKFNA"
    (.search { user := b!"SomeNick", isMaxSize := true, dataType := 9,
               tth := some (h32 b!"TO32WPD6AQE7VA7654HEAM5GKFQGIL7F2BEKFNA") }) = true := by decide +kernel
example : entry b!"Search" b!"Hub:SomeNick F?T?0?9?TTH:TO32WPD6AQE7VA7654HEAM5GKFQGIL7F2BEKFNA$"
    b!"Hub:SomeNick F?T?0?9?TTH:TO32WPD6AQE7VA7654HEAM5GKFQGIL7F2BEKFNA"
    (.search { user := b!"SomeNick", isMaxSize := true, dataType := 9,
               tth := some (h32 b!"TO32WPD6AQE7VA7654HEAM5GKFQGIL7F2BEKFNA") }) = true := by decide +kernel
example : both b!"Search" b!"Hub:SomeNick F?T?0?10?word"
    (.search { user := b!"SomeNick", isMaxSize := true, dataType := 10, pattern := b!"word" }) = true := by decide +kernel
example : entry b!"Search" b!"Hub:SomeNick F?T?0?1?magnet:?xt=urn:btih:493C8841D2058D79EA6F7D7103C48D9465B65D41&dn=some$name"
    b!"Hub:SomeNick F?T?0?1?magnet:?xt=urn:btih:493C8841D2058D79EA6F7D7103C48D9465B65D41&amp;dn=some$name"
    (.search { user := b!"SomeNick", isMaxSize := true, dataType := 1,
               pattern := b!"magnet:?xt=urn:btih:493C8841D2058D79EA6F7D7103C48D9465B65D41&dn=some name" }) = true := by
  decide +kernel
example : both b!"SR" b!"User6 dir1\\dir 2\\pictures 0/4\x05Testhub (192.168.1.1)"
    (.sr { src := b!"User6", path := [b!"dir1", b!"dir 2", b!"pictures"], isDir := true, totalSlots := 4,
           hubName := b!"Testhub", hubAddress := b!"192.168.1.1" }) = true := by decide +kernel
example : both b!"SR" b!"User1 dir\\file 1.txt\x05437 3/4\x05Testhub (192.168.1.1:411)\x05User2"
    (.sr { src := b!"User1", path := [b!"dir", b!"file 1.txt"], size := 437, freeSlots := 3, totalSlots := 4,
           hubName := b!"Testhub", hubAddress := b!"192.168.1.1:411", dst := b!"User2" }) = true := by decide +kernel
example : both b!"SR" b!"User1 Linux\\kubuntu-18.04-desktop-amd64.iso\x051868038144 3/3\x05TTH:BNQGWMXKUIAFAU3TV32I5U6SKNYMQBBNH4FELNQ (192.168.1.1:411)\x05User2"
    (.sr { src := b!"User1", path := [b!"Linux", b!"kubuntu-18.04-desktop-amd64.iso"], size := 1868038144, freeSlots := 3,
           totalSlots := 3, tth := some (h32 b!"BNQGWMXKUIAFAU3TV32I5U6SKNYMQBBNH4FELNQ"), hubAddress := b!"192.168.1.1:411",
           dst := b!"User2" }) = true := by decide +kernel
example : both b!"SR" b!"User1 dir\\some file.dat\x05152374784 1/3\x05TTH:HRFQOVMYIGSSGXN4FDTOGWO4USC24BBVQLOKIQI (1.2.3.4:411)\x05User2"
    (.sr { src := b!"User1", path := [b!"dir", b!"some file.dat"], size := 152374784, freeSlots := 1,
           totalSlots := 3, tth := some (h32 b!"HRFQOVMYIGSSGXN4FDTOGWO4USC24BBVQLOKIQI"), hubAddress := b!"1.2.3.4:411",
           dst := b!"User2" }) = true := by decide +kernel
example : both b!"SA" b!"LWPNACQDBZRYXW3VHJVCJ64QBZNGHOHHHZWCLNQ 1.2.3.4:412"
    (.sa { tth := h32 b!"LWPNACQDBZRYXW3VHJVCJ64QBZNGHOHHHZWCLNQ", address := b!"1.2.3.4:412" }) = true := by decide +kernel
example : both b!"SP" b!"LWPNACQDBZRYXW3VHJVCJ64QBZNGHOHHHZWCLNQ user"
    (.sp { tth := h32 b!"LWPNACQDBZRYXW3VHJVCJ64QBZNGHOHHHZWCLNQ", user := b!"user" }) = true := by decide +kernel

/-! `nmdc/msg_user_list_test.go`. -/

example : both b!"OpList" b!"$$" (.names .opList []) = true := by decide +kernel
example : both b!"OpList" b!"Op 1$$" (.names .opList [b!"Op 1"]) = true := by decide +kernel
example : both b!"OpList" b!"Op 1$$Op 2$$" (.names .opList [b!"Op 1", b!"Op 2"]) = true := by decide +kernel
example : both b!"UserIP" b!"john doe 192.168.1.2$$user 2 192.168.1.3$$"
    (.userIP [{ name := b!"john doe", ip := b!"192.168.1.2" }, { name := b!"user 2", ip := b!"192.168.1.3" }]) = true := by
  decide +kernel

/-! `nmdc/msg_user_test.go`. -/

example : both b!"MyINFO" b!"$ALL johndoe RU<ApexDC++ V:0.4.0,M:P,H:27/1/3,S:92,L:512>$ $LAN(T3)K$example@example.com$1234$"
    (.myINFO { name := b!"johndoe", desc := b!"RU", client := { name := b!"ApexDC++", version := b!"0.4.0" }, mode := c!"P",
               hubsNormal := 27, hubsRegistered := 1, hubsOperator := 3, slots := 92, extra := [(b!"L", b!"512")],
               conn := b!"LAN(T3)", flag := c!"K", email := b!"example@example.com", shareSize := 1234 }) = true := by
  decide +kernel
example : entry b!"MyINFO" b!"$ALL verg P verg$ $0.005A$$$" b!"$ALL verg P verg< V:,M: ,H:0/0/0,S:0>$ $0.005A$$0$"
    (.myINFO { name := b!"verg", desc := b!"P verg", mode := 0, conn := b!"0.005", flag := c!"A" }) = true := by
  decide +kernel
example : entry b!"MyINFO" b!"$ALL whist RU [29]some desc<GreylynkDC++ v:2.3.5,$ $LAN(T1)A$$65075277005$"
    b!"$ALL whist RU [29]some desc<GreylynkDC++ V:2.3.5,M: ,H:0/0/0,S:0>$ $LAN(T1)A$$65075277005$"
    (.myINFO { name := b!"whist", desc := b!"RU [29]some desc", client := { name := b!"GreylynkDC++", version := b!"2.3.5" },
               mode := 0, conn := b!"LAN(T1)", flag := c!"A", shareSize := 65075277005 }) = true := by decide +kernel
example : entry b!"MyINFO" b!"$ALL vespa9347q1 <StrgDC++,M:A,H:1 /0/0,S:2>$ $0.01.$$37038592310$"
    b!"$ALL vespa9347q1 <StrgDC++ V:,M:A,H:1/0/0,S:2>$ $0.01.$$37038592310$"
    (.myINFO { name := b!"vespa9347q1", client := { name := b!"StrgDC++" }, mode := c!"A", hubsNormal := 1, slots := 2,
               conn := b!"0.01", flag := c!".", shareSize := 37038592310 }) = true := by decide +kernel
example : entry b!"MyINFO" b!"$ALL #GlobalOpChat $ $$$0$" b!"$ALL #GlobalOpChat < V:,M: ,H:0/0/0,S:0>$ $\x01$$0$"
    (.myINFO { name := b!"#GlobalOpChat", mode := 0 }) = true := by decide +kernel
example : entry b!"MyINFO" b!"$ALL test @ HUB-Bot$ $BOT $mail (3.0.1)$BOT $"
    b!"$ALL test @ HUB-Bot< V:,M: ,H:0/0/0,S:0>$ $BOT $mail (3.0.1)$0$"
    (.myINFO { name := b!"test", desc := b!"@ HUB-Bot", mode := 0, flag := 0x20, email := b!"mail (3.0.1)",
               conn := b!"BOT" }) = true := by decide +kernel
example : entry b!"MyINFO" b!"$ALL -EA-Sports $P$$$0$" b!"$ALL -EA-Sports < V:,M:P,H:0/0/0,S:0>$ $\x01$$0$"
    (.myINFO { name := b!"-EA-Sports", mode := c!"P" }) = true := by decide +kernel
example : entry b!"MyINFO" b!"$ALL N8611 <++ V:0.868,M:A,H:34,S:3>$A$0.005.$$27225945203$"
    b!"$ALL N8611 <++ V:0.868,M:A,H:34/0/0,S:3>$ $0.005.$$27225945203$"
    (.myINFO { name := b!"N8611", client := { name := b!"++", version := b!"0.868" }, mode := c!"A", hubsNormal := 34,
               slots := 3, conn := b!"0.005", flag := c!".", shareSize := 27225945203 }) = true := by decide +kernel
example : both b!"MyINFO"
    b!"$ALL user some,desc,<go-dcpp V:0.20.1,M:A,H:2/1/0,S:6><go-dcpp V:0.20.1,M:A,H:2/1/0,S:6>$ $\x04$$324882100000$"
    (.myINFO { name := b!"user", desc := b!"some,desc,<go-dcpp V:0.20.1,M:A,H:2/1/0,S:6>",
               client := { name := b!"go-dcpp", version := b!"0.20.1" }, mode := c!"A", hubsNormal := 2, hubsRegistered := 1,
               slots := 6, flag := 4, shareSize := 324882100000 }) = true := by decide +kernel

/-! `nmdc/types_test.go`. -/

example : Str.marshal none b!"text $&|" = .ok b!"text &#36;&amp;&#124;" := by decide +kernel
example : Str.unmarshal none b!"text &#36;&amp;&#124;" = .ok b!"text $&|" := by decide +kernel

end Verif.Conformance.Nmdc
