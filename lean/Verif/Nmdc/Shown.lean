import Verif.Nmdc.Chat

/-!
# User flags, and chat messages as text
-/

namespace Verif.Nmdc

open Verif.Go

/-- `UserFlag.IsSet`, `nmdc/msg_user.go:78-80`. -/
def UserFlag.isSet (f f2 : Byte) : Bool := f &&& f2 != 0

/-- The flags, `nmdc/msg_user.go:82-94`. -/
def UserFlag.statusNormal : Byte := 0x01
/-- `nmdc/msg_user.go:84`. -/
def UserFlag.statusAway : Byte := 0x02
/-- `nmdc/msg_user.go:85`. -/
def UserFlag.statusServer : Byte := 0x04
/-- `nmdc/msg_user.go:86`. -/
def UserFlag.statusFireball : Byte := 0x08
/-- `nmdc/msg_user.go:87`. -/
def UserFlag.tlsDownload : Byte := 0x10
/-- `nmdc/msg_user.go:88`. -/
def UserFlag.tlsUpload : Byte := 0x20
/-- `nmdc/msg_user.go:89`. -/
def UserFlag.ipv4 : Byte := 0x40
/-- `nmdc/msg_user.go:90`. -/
def UserFlag.ipv6 : Byte := 0x80
/-- `nmdc/msg_user.go:92`. -/
def UserFlag.tls : Byte := UserFlag.tlsUpload ||| UserFlag.tlsDownload

/-- `ChatMessage.String`, `nmdc/msg_chat.go:24-29`. -/
def ChatMessage.string (m : ChatMessage) : Bytes :=
  if m.name = [] then m.text else b!"<" ++ m.name ++ b!"> " ++ m.text

end Verif.Nmdc
