import Verif.Adc.OwnConn

/-!
# Concrete cases: reading packets with messages of the caller's own types (`adc/reader.go`)

The values were worked out by hand from the Go code.
-/

namespace Verif.Conformance.AdcOwnConn

open Verif.Go Verif.Lineproto Verif.Adc Verif.Registry

local instance : ParseFloat := ⟨fun _ => .bad⟩
local instance : ParseFloat32 := ⟨fun _ => .bad⟩

/-- A method that refuses texts of other lengths than three, and one that is found only on the pointer. -/
def types : Bool → OwnType
  | true => ⟨.own Bytes (fun s _ => (s, if s.length = 3 then .ok () else .err (.other 900))) [], true⟩
  | false => ⟨.own Bytes (fun s _ => (s, .ok ())) [], false⟩

def reg : Reg MsgType (Msg ⊕ Bool) := [(⟨b!"POL", rfl⟩, .inr true), (⟨b!"PTR", rfl⟩, .inr false)]

/-- Nothing is compressed here. -/
def noZ : Inflater Unit where
  header _ _ := .error .eof
  step _ _ := ((), [])
  status _ := .failed .eof

/-- What is shown of a result: the address of a packet, the type of the caller, or the raw payload. -/
inductive Shown where
  | packet (a : Address) (u : Option Bool) (raw : Bytes)
  | message (u : Option Bool) (raw : Bytes)
  | failed (e : Err)
  | panicked
  | stop
deriving DecidableEq

def payload : OwnMsg Bool → Option Bool × Bytes
  | .lib (.raw _ d) => (none, d)
  | .lib _ => (none, b!"lib")
  | .own u _ => (some u, [])

def shown : OwnEnd Bool → Shown
  | .returned (.packet a m) => .packet a (payload m).1 (payload m).2
  | .returned (.message m) => .message (payload m).1 (payload m).2
  | .failed e => .failed e
  | .panicked => .panicked

/-- Some calls, one after the other. -/
def calls : List Call → AReader Unit → List Shown
  | [], _ => []
  | c :: cs, r =>
    match r.readOf types reg noZ c 0 60 with
    | .val (e, r) => shown e :: calls cs r
    | _ => [.stop]

def on (s : Bytes) : AReader Unit := newAReader [⟨s, none⟩]

example : calls [.packet, .packet, .packet, .packet, .packet] (on b!"HPOL abc\n\nIPTR x\nIPOL abcd\nCPOL abc\n") =
    [.packet .hub (some true) [], .panicked, .failed (.other 900), .packet .client (some true) [], .failed .eof] := by decide +kernel
example : calls [.raw, .raw, .raw, .raw] (on b!"HPOL abc\nIPTR x\n\nIPOL abcd\n") =
    [.packet .hub none b!"abc", .packet .info none b!"x", .packet .info none b!"abcd", .failed .eof] := by decide +kernel
example : calls [.info, .info, .info, .info, .info] (on b!"HPOL abc\nIPTR x\nIPOL abc\nCPOL abc\nIPOL ab\n") =
    [.failed (.other 131), .panicked, .message (some true) [], .failed (.other 131), .failed (.other 900)] := by decide +kernel
example : calls [.client, .client, .client, .client, .client] (on b!"HPOL abc\nCPTR x\nCPOL abc\nIPOL abc\nCPOL ab\n") =
    [.failed (.other 132), .panicked, .message (some true) [], .failed (.other 132), .failed (.other 900)] := by decide +kernel
example : calls [.packet, .info] (on b!"IZZZ q\nIZZZ q\n") = [.packet .info none b!"q", .message none b!"q"] := by decide +kernel
/-- A line that ends within a selector. -/
example : calls [.raw, .packet] (on b!"FSCH AAAA +TC\nHPOL abc\n") = [.panicked, .packet .hub (some true) []] := by decide +kernel
/-- A line that is no packet. -/
example : (calls [.packet, .packet] (on b!"HP\nHPOL abc\n")).drop 1 = [.packet .hub (some true) []] := by decide +kernel

end Verif.Conformance.AdcOwnConn
