import Verif.Nmdc.Message
import Verif.Adc.Messages

/-!
# The registries of message types (`nmdc/message.go:16-88`, `adc/messages.go:11-36`)

`Nmdc.lookup` and `Adc.lookupType` look into the tables that the functions `init` make.  Here the tables
are made by calls of `RegisterMessage`, also by those of the user of the package.
-/

namespace Verif.Registry

open Verif.Go

/-- The map `messages`, `nmdc/message.go:16-18` and `adc/messages.go:11-13`: names and types.  A Go map has
one entry for a key; here the first one counts. -/
abbrev Reg (K T : Type) := List (K × T)

variable {K T : Type} [DecidableEq K]

/-- `messages[name]`. -/
def Reg.get (r : Reg K T) (k : K) : Option T := (r.find? fun e => e.1 = k).map (·.2)

/-- `RegisterMessage`, `nmdc/message.go:44-54` and `adc/messages.go:26-36`: `k` is the name the message
gives (`Type()` or `Cmd()`) and `t` its type without a pointer. -/
def Reg.register (k : K) (t : T) (r : Reg K T) : Res (Reg K T) :=
  if (r.get k).isSome then .panic else .ok ((k, t) :: r)

/-- A sequence of calls; a panic ends it. -/
def Reg.registerAll : List (K × T) → Reg K T → Res (Reg K T)
  | [], r => .ok r
  | (k, t) :: calls, r =>
    match r.register k t with
    | .ok r => Reg.registerAll calls r
    | .err e => .err e
    | .panic => .panic

/-- `sort.Strings`: the order is that of the bytes. -/
def sortStrings (l : List Bytes) : List Bytes := l.mergeSort fun a b => decide (a ≤ b)

/-- `RegisteredTypes`, `nmdc/message.go:69-76`; `ord` is the order in which the map is iterated. -/
def registeredTypes (ord : List Bytes → List Bytes) (r : Reg Bytes T) : List Bytes :=
  sortStrings (ord (r.map (·.1)))

/-- `IsRegistered` and `IsRegisteredBytes`, `nmdc/message.go:79-88`. -/
def isRegistered (typ : Bytes) (r : Reg Bytes T) : Bool := (r.get typ).isSome

/-- What `NewMessage` makes: a zero value of a type of this package, of a type of the user, or a
`RawMessage`. -/
inductive NewVal (U : Type) where
  | std (m : Nmdc.Msg)
  | user (u : U)
  | raw (typ : Bytes)

/-- `NewMessage`, `nmdc/message.go:60-66`. -/
def newMessage (typ : Bytes) (r : Reg Bytes (Nmdc.Msg ⊕ U)) : NewVal U :=
  match r.get typ with
  | none => .raw typ
  | some (.inl m) => .std m
  | some (.inr u) => .user u

/-- `RegisterMessage(m)` for a message of this package: its name and the zero value of its type. -/
def nmdcCall (m : Nmdc.Msg) : Bytes × (Nmdc.Msg ⊕ U) := (m.typ, .inl m.fresh)

/-- `RegisterMessage(&RawMessage{Typ: typ})`, `nmdc/message.go:44-54`: the name is that of the value, but only the type is kept, and its zero value
has no name (`nmdc/message.go:93-96`). -/
def rawCall (typ : Bytes) : Bytes × (Nmdc.Msg ⊕ U) := (typ, .inl (.raw [] []))

/-- The functions `init` of package nmdc, in the order of the files: `extensions.go:15-17`, `msg_chat.go:12-17`,
`msg_ctm.go:9-12`, `msg_errors.go:8-11`, `msg_files.go:9-14`, `msg_hub.go:7-15`, `msg_lock.go:19-22`,
`msg_other.go:7-13`, `msg_pass.go:3-7`, `msg_ping.go:12-17`, `msg_search.go:13-18`, `msg_user.go:12-19`,
`msg_user_list.go:5-10`. -/
def nmdcInit : List (List Nmdc.Msg) :=
  [[.supports []],
   [.chat {}, .priv {}, .mcTo {}, .userCommand {}],
   [.connectToMe {}, .revConnectToMe {}],
   [.errMsg .failed none, .errMsg .error none],
   [.adcGet {}, .adcSnd {}, .direction {}, .noArgs .maxedOut],
   [.name .hello [], .noArgs .zOn, .value .version [], .text .hubName [], .noArgs .hubIsFull, .text .hubTopic [],
    .failOver []],
   [.lock {}, .value .key []],
   [.value .forceMove [], .name .kick [], .name .close [], .noArgs .getTopic, .text .setTopic []],
   [.text .myPass [], .noArgs .badPass, .noArgs .getPass],
   [.text .botINFO [], .text .setIcon [], .text .setLogo [], .hubINFO {}],
   [.search {}, .sr {}, .sa {}, .sp {}],
   [.name .validateNick [], .name .validateDenide [], .name .myNick [], .name .quit [], .name .logedIn [], .myINFO {}],
   [.noArgs .getNickList, .names .opList [], .names .botList [], .userIP []]]

/-- `RegisterMessage(m)` for a message of package adc, given by the zero value of its type. -/
def adcCall (m : Adc.Msg) : Adc.MsgType × (Adc.Msg ⊕ U) := (m.cmd, .inl m)

/-- The functions `init` of package adc, in the order of the files: `chat.go:3-5`, `connect.go:3-6`, `files.go:13-17`,
`hub.go:10-16`, `messages.go:15-20`, `search.go:5-8`, `user.go:8-11`. -/
def adcInit : List (List Adc.Msg) :=
  [[Adc.StructType.chat.new],
   [Adc.StructType.revConnect.new, Adc.StructType.connect.new],
   [Adc.StructType.getInfo.new, .get ⟨[], [], 0, 0, false⟩, .snd ⟨[], [], 0, 0, false⟩],
   [.sidAssign default, Adc.StructType.userCommand.new, .getPassword [], Adc.StructType.password.new, Adc.StructType.disconnect.new],
   [.supported none, .status ⟨0, 0, []⟩, .zon, .zoff],
   [Adc.StructType.search.new, Adc.StructType.result.new],
   [Adc.StructType.userInfo.new]]

end Verif.Registry
