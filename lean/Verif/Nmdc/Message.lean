import Verif.Nmdc.Chat
import Verif.Nmdc.Ctm
import Verif.Nmdc.Simple
import Verif.Nmdc.Search
import Verif.Nmdc.MyInfo

/-!
# Messages, their registry and their lines (`nmdc/message.go`)

`Msg` is the Go interface `Message` restricted to the types this package registers, plus `RawMessage`. Types that only
embed `Name`, `String`, `NoArgs` or `Names`, and types with the same code, share a constructor; an index tells them apart.
-/

namespace Verif.Nmdc

open Verif.Go Verif.Tiger

/-- Types that embed `Name`: `msg_hub.go:17-23`, `msg_other.go:33-51`, `msg_user.go:25-65`. -/
inductive NameKind where
  | hello | kick | close | validateNick | validateDenide | myNick | quit | logedIn
deriving DecidableEq, Repr

/-- Types that embed `String` (and `HubTopic`, which converts to it): `msg_hub.go:25-31,59-78`, `msg_other.go:63-71`,
`msg_pass.go:9-15`, `msg_ping.go:20-42`. -/
inductive TextKind where
  | hubName | hubTopic | setTopic | myPass | botINFO | setIcon | setLogo
deriving DecidableEq, Repr

/-- Types that embed `NoArgs`: `msg_hub.go:33-39,107-115`, `msg_other.go:53-61`, `msg_pass.go:17-31`, `msg_user_list.go:15-21`,
`msg_files.go:255-261`. -/
inductive ArgsKind where
  | zOn | hubIsFull | getTopic | badPass | getPass | getNickList | maxedOut
deriving DecidableEq, Repr

/-- Types with one unescaped value: `msg_hub.go:41-57`, `msg_other.go:15-31`, `msg_lock.go:136-152`. -/
inductive ValueKind where
  | version | forceMove | key
deriving DecidableEq, Repr

/-- `msg_errors.go`. -/
inductive ErrKind where
  | failed | error
deriving DecidableEq, Repr

/-- Types that embed `Names`: `msg_user_list.go:23-43`. -/
inductive ListKind where
  | opList | botList
deriving DecidableEq, Repr

/-- A message, `nmdc/message.go:27-39` and `92-96`. -/
inductive Msg where
  | chat (m : ChatMessage)
  | priv (m : PrivateMessage)
  | mcTo (m : MCTo)
  | userCommand (m : UserCommand)
  | connectToMe (m : ConnectToMe)
  | revConnectToMe (m : RevConnectToMe)
  | errMsg (k : ErrKind) (e : Option Bytes)
  | name (k : NameKind) (n : Bytes)
  | text (k : TextKind) (s : Bytes)
  | noArgs (k : ArgsKind)
  | value (k : ValueKind) (s : Bytes)
  | failOver (hosts : List Bytes)
  | supports (ext : List Bytes)
  | lock (m : Lock)
  | hubINFO (m : HubINFO)
  | names (k : ListKind) (l : List Bytes)
  | userIP (l : List UserAddress)
  | adcGet (m : ADCGet)
  | adcSnd (m : ADCSnd)
  | direction (m : Direction)
  | search (m : Search)
  | sr (m : SR)
  | sa (m : SA)
  | sp (m : SP)
  | myINFO (m : MyINFO)
  | raw (typ data : Bytes)
deriving DecidableEq, Repr

/-- `Type()` of the types that embed `Name`. -/
def NameKind.typ : NameKind → Bytes
  | .hello => b!"Hello" | .kick => b!"Kick" | .close => b!"Close" | .validateNick => b!"ValidateNick"
  | .validateDenide => b!"ValidateDenide" | .myNick => b!"MyNick" | .quit => b!"Quit" | .logedIn => b!"LogedIn"

/-- `Type()` of the text types. -/
def TextKind.typ : TextKind → Bytes
  | .hubName => b!"HubName" | .hubTopic => b!"HubTopic" | .setTopic => b!"SetTopic" | .myPass => b!"MyPass"
  | .botINFO => b!"BotINFO" | .setIcon => b!"SetIcon" | .setLogo => b!"SetLogo"

/-- `Type()` of the types without arguments. -/
def ArgsKind.typ : ArgsKind → Bytes
  | .zOn => b!"ZOn" | .hubIsFull => b!"HubIsFull" | .getTopic => b!"GetTopic" | .badPass => b!"BadPass"
  | .getPass => b!"GetPass" | .getNickList => b!"GetNickList" | .maxedOut => b!"MaxedOut"

/-- `Type()` of the types with one unescaped value. -/
def ValueKind.typ : ValueKind → Bytes
  | .version => b!"Version" | .forceMove => b!"ForceMove" | .key => b!"Key"

/-- `Type()` of the two error messages. -/
def ErrKind.typ : ErrKind → Bytes
  | .failed => b!"Failed" | .error => b!"Error"

/-- `Type()` of the name lists. -/
def ListKind.typ : ListKind → Bytes
  | .opList => b!"OpList" | .botList => b!"BotList"

/-- `Type()`, the methods of that name in `nmdc/msg_*.go`, `nmdc/extensions.go:26-28` and `nmdc/message.go:99-101`. -/
def Msg.typ : Msg → Bytes
  | .chat _ => []
  | .priv _ => b!"To:"
  | .mcTo _ => b!"MCTo"
  | .userCommand _ => b!"UserCommand"
  | .connectToMe _ => b!"ConnectToMe"
  | .revConnectToMe _ => b!"RevConnectToMe"
  | .errMsg k _ => k.typ
  | .name k _ => k.typ
  | .text k _ => k.typ
  | .noArgs k => k.typ
  | .value k _ => k.typ
  | .failOver _ => b!"FailOver"
  | .supports _ => b!"Supports"
  | .lock _ => b!"Lock"
  | .hubINFO _ => b!"HubINFO"
  | .names k _ => k.typ
  | .userIP _ => b!"UserIP"
  | .adcGet _ => b!"ADCGET"
  | .adcSnd _ => b!"ADCSND"
  | .direction _ => b!"Direction"
  | .search _ => b!"Search"
  | .sr _ => b!"SR"
  | .sa _ => b!"SA"
  | .sp _ => b!"SP"
  | .myINFO _ => b!"MyINFO"
  | .raw t _ => t

/-- `m.(*ChatMessage)` succeeds. -/
def Msg.isChat : Msg → Bool
  | .chat _ => true
  | _ => false

/-- `m.(*RawMessage)` succeeds. -/
def Msg.isRaw : Msg → Bool
  | .raw _ _ => true
  | _ => false

/-- The zero value of the type of a message: `reflect.New(rt)`, `nmdc/message.go:65`. -/
def Msg.fresh : Msg → Msg
  | .chat _ => .chat {}
  | .priv _ => .priv {}
  | .mcTo _ => .mcTo {}
  | .userCommand _ => .userCommand {}
  | .connectToMe _ => .connectToMe {}
  | .revConnectToMe _ => .revConnectToMe {}
  | .errMsg k _ => .errMsg k none
  | .name k _ => .name k []
  | .text k _ => .text k []
  | .noArgs k => .noArgs k
  | .value k _ => .value k []
  | .failOver _ => .failOver []
  | .supports _ => .supports []
  | .lock _ => .lock {}
  | .hubINFO _ => .hubINFO {}
  | .names k _ => .names k []
  | .userIP _ => .userIP []
  | .adcGet _ => .adcGet {}
  | .adcSnd _ => .adcSnd {}
  | .direction _ => .direction {}
  | .search _ => .search {}
  | .sr _ => .sr {}
  | .sa _ => .sa {}
  | .sp _ => .sp {}
  | .myINFO _ => .myINFO {}
  | .raw t _ => .raw t []

/-- `MarshalNMDC`: the payload written to the buffer. `ord` gives the order in which a map is iterated. -/
def Msg.marshal (enc : Codec) (ord : StrMap → StrMap) : Msg → Res Bytes
  | .chat m => m.marshal enc
  | .priv m => m.marshal enc
  | .mcTo m => m.marshal enc
  | .userCommand m => m.marshal enc
  | .connectToMe m => m.marshal enc
  | .revConnectToMe m => m.marshal enc
  | .errMsg _ e => ErrMsg.marshal enc e
  | .name _ n => Name.marshal enc n
  | .text _ s => Str.marshal enc s
  | .noArgs _ => NoArgs.marshal
  | .value _ s => RawValue.marshal s
  | .failOver l => FailOver.marshal l
  | .supports l => Supports.marshal l
  | .lock m => m.marshal
  | .hubINFO m => m.marshal enc
  | .names _ l => Names.marshal enc l
  | .userIP l => UserIP.marshal enc l
  | .adcGet m => m.marshal enc
  | .adcSnd m => m.marshal enc
  | .direction m => m.marshal
  | .search m => m.marshal enc
  | .sr m => m.marshal enc
  | .sa m => m.marshal
  | .sp m => m.marshal enc
  | .myINFO m => m.marshal enc (ord m.extra)
  | .raw _ d => .ok d

/-- `UnmarshalNMDC` of the value `m` (its previous content matters to some types). -/
def Msg.unmarshal [HtmlEntities] (dec : Codec) (m : Msg) (data : Bytes) : Res Msg :=
  match m with
  | .chat m => do let r ← m.unmarshal dec data; pure (.chat r)
  | .priv m => do let r ← m.unmarshal dec data; pure (.priv r)
  | .mcTo m => do let r ← m.unmarshal dec data; pure (.mcTo r)
  | .userCommand m => do let r ← m.unmarshal dec data; pure (.userCommand r)
  | .connectToMe m => do let r ← m.unmarshal dec data; pure (.connectToMe r)
  | .revConnectToMe m => do let r ← m.unmarshal dec data; pure (.revConnectToMe r)
  | .errMsg k e => do let r ← ErrMsg.unmarshal dec e data; pure (.errMsg k r)
  | .name k _ => do let r ← Name.unmarshal dec data; pure (.name k r)
  | .text k _ => do let r ← Str.unmarshal dec data; pure (.text k r)
  | .noArgs k => do let _ ← NoArgs.unmarshal data; pure (.noArgs k)
  | .value k _ => do let r ← RawValue.unmarshal data; pure (.value k r)
  | .failOver _ => do let r ← FailOver.unmarshal data; pure (.failOver r)
  | .supports _ => do let r ← Supports.unmarshal data; pure (.supports r)
  | .lock _ => do let r ← Lock.unmarshal data; pure (.lock r)
  | .hubINFO m => do let r ← m.unmarshal dec data; pure (.hubINFO r)
  | .names k _ => do let r ← Names.unmarshal dec data; pure (.names k r)
  | .userIP _ => do let r ← UserIP.unmarshal dec data; pure (.userIP r)
  | .adcGet m => do let r ← m.unmarshal dec data; pure (.adcGet r)
  | .adcSnd m => do let r ← m.unmarshal dec data; pure (.adcSnd r)
  | .direction _ => do let r ← Direction.unmarshal data; pure (.direction r)
  | .search m => do let r ← m.unmarshal dec data; pure (.search r)
  | .sr m => do let r ← m.unmarshal dec data; pure (.sr r)
  | .sa _ => do let r ← SA.unmarshal data; pure (.sa r)
  | .sp _ => do let r ← SP.unmarshal dec data; pure (.sp r)
  | .myINFO m => do let r ← m.unmarshal dec data; pure (.myINFO r)
  | .raw t _ => .ok (.raw t data)

/-- The calls of `RegisterMessage` in the `init` functions of `nmdc/msg_*.go` and `nmdc/extensions.go:15-17`: the zero values
of the registered types. -/
def registered : List Msg :=
  [.chat {}, .priv {}, .mcTo {}, .userCommand {}, .connectToMe {}, .revConnectToMe {},
    .errMsg .failed none, .errMsg .error none,
    .name .hello [], .noArgs .zOn, .value .version [], .text .hubName [], .noArgs .hubIsFull, .text .hubTopic [], .failOver [],
    .value .forceMove [], .name .kick [], .name .close [], .noArgs .getTopic, .text .setTopic [],
    .text .myPass [], .noArgs .badPass, .noArgs .getPass,
    .text .botINFO [], .text .setIcon [], .text .setLogo [], .hubINFO {},
    .noArgs .getNickList, .names .opList [], .names .botList [], .userIP [],
    .lock {}, .value .key [], .adcGet {}, .adcSnd {}, .direction {}, .noArgs .maxedOut, .supports [],
    .search {}, .sr {}, .sa {}, .sp {},
    .name .validateNick [], .name .validateDenide [], .name .myNick [], .name .quit [], .name .logedIn [], .myINFO {}]

/-- The map `messages`, `nmdc/message.go:16-18`, filled by `RegisterMessage` (lines 44-54). -/
def lookup (typ : Bytes) : Option Msg := registered.find? (·.typ = typ)

/-- `NewMessage`, `nmdc/message.go:60-66`. -/
def newMessage (typ : Bytes) : Msg := (lookup typ).getD (.raw typ [])

/-- `IsRegistered` and `IsRegisteredBytes`, `nmdc/message.go:79-88`. -/
def isRegistered (typ : Bytes) : Bool := (lookup typ).isSome

/-- The head of a line, `nmdc/message.go:119-124`. -/
def msgHead (typ : Bytes) : Bytes := if typ = [] then [] else b!"$" ++ typ ++ b!" "

/-- The end of `MarshalTo`, `nmdc/message.go:125-135`: `pre` is the buffer before the payload. -/
def finishMsg (pre payload : Bytes) : Res Bytes :=
  if payload = [] then (if pre = [] then .panic else .ok (pre.dropLast ++ [delim]))
  else .ok (pre ++ payload ++ [delim])

/-- `MarshalTo`, `nmdc/message.go:118-136`: the new content of the buffer. -/
def marshalTo (enc : Codec) (ord : StrMap → StrMap) (buf : Bytes) (m : Msg) : Res Bytes := do
  let p ← m.marshal enc ord
  finishMsg (buf ++ msgHead m.typ) p

/-- `Marshal`, `nmdc/message.go:140-146`. -/
def marshalMsg (enc : Codec) (ord : StrMap → StrMap) (m : Msg) : Res Bytes := marshalTo enc ord [] m

end Verif.Nmdc
