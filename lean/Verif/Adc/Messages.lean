import Verif.Adc.Features

/-!
# ADC messages (`adc/messages.go`, `chat.go`, `connect.go`, `files.go`, `hub.go`, `search.go`, `user.go`)
-/

namespace Verif.Adc

open Verif.Go Verif.Tiger

/-- `MsgType`, `adc/packets.go:22`: three bytes. -/
structure MsgType where
  bytes : Bytes
  size : bytes.length = 3
deriving DecidableEq, Repr

/-- The struct types without methods of their own. -/
inductive StructType where
  /-- `ChatMessage` -/
  | chat
  /-- `RevConnectRequest` -/
  | revConnect
  /-- `ConnectRequest` -/
  | connect
  /-- `GetInfoRequest` -/
  | getInfo
  /-- `UserCommand` -/
  | userCommand
  /-- `Password` -/
  | password
  /-- `Disconnect` -/
  | disconnect
  /-- `SearchRequest` -/
  | search
  /-- `SearchResult` -/
  | result
  /-- `UserInfo` -/
  | userInfo
  /-- `HubInfo` -/
  | hubInfo
deriving DecidableEq, Repr

/-- The fields of the struct types: `adc/chat.go:7-12`, `connect.go:8-11` and `17-21`, `files.go:19-22`, `hub.go:48-55`,
`91-93` and `99-106`, `search.go:31-49` and `55-63`, `user.go:56-99` and `113-144`. -/
def StructType.fields : StructType → List Fld
  | .chat => [⟨"Text", b!"#", false, .str⟩, ⟨"PM", b!"PM", false, .ptr .sid⟩, ⟨"Me", b!"ME", false, .bool⟩, ⟨"TS", b!"TS", false, .int⟩]
  | .revConnect => [⟨"Proto", b!"#", false, .str⟩, ⟨"Token", b!"#", false, .str⟩]
  | .connect => [⟨"Proto", b!"#", false, .str⟩, ⟨"Port", b!"#", false, .int⟩, ⟨"Token", b!"#", false, .str⟩]
  | .getInfo => [⟨"Type", b!"#", false, .str⟩, ⟨"Path", b!"#", false, .str⟩]
  | .userCommand =>
    [⟨"Path", b!"#", false, .path⟩, ⟨"Command", b!"TT", false, .str⟩, ⟨"Category", b!"CT", false, .int⟩,
     ⟨"Remove", b!"RM", false, .int⟩, ⟨"Constrained", b!"CO", false, .int⟩, ⟨"Separator", b!"SP", false, .int⟩]
  | .password => [⟨"Hash", b!"#", false, .tth⟩]
  | .disconnect =>
    [⟨"ID", b!"#", false, .sid⟩, ⟨"Message", b!"MS", false, .str⟩, ⟨"By", b!"ID", false, .sid⟩,
     ⟨"Duration", b!"TL", false, .int⟩, ⟨"Redirect", b!"RD", false, .str⟩]
  | .search =>
    [⟨"Token", b!"TO", false, .str⟩, ⟨"And", b!"AN", false, .slice .str⟩, ⟨"Not", b!"NO", false, .slice .str⟩,
     ⟨"Ext", b!"EX", false, .slice .str⟩, ⟨"Le", b!"LE", false, .int⟩, ⟨"Ge", b!"GE", false, .int⟩, ⟨"Eq", b!"EQ", false, .int⟩,
     ⟨"Type", b!"TY", false, .int⟩, ⟨"TTH", b!"TR", false, .ptr .tth⟩, ⟨"Group", b!"GR", false, .int⟩,
     ⟨"NoExt", b!"RX", false, .slice .str⟩]
  | .result =>
    [⟨"Token", b!"TO", false, .str⟩, ⟨"Path", b!"FN", false, .str⟩, ⟨"Size", b!"SI", false, .int⟩,
     ⟨"Slots", b!"SL", false, .int⟩, ⟨"TTH", b!"TR", false, .ptr .tth⟩]
  | .userInfo =>
    [⟨"Id", b!"ID", false, .cid⟩, ⟨"Pid", b!"PD", false, .ptr .cid⟩, ⟨"Name", b!"NI", true, .str⟩,
     ⟨"Ip4", b!"I4", false, .str⟩, ⟨"Ip6", b!"I6", false, .str⟩, ⟨"Udp4", b!"U4", false, .int⟩, ⟨"Udp6", b!"U6", false, .int⟩,
     ⟨"ShareSize", b!"SS", true, .int⟩, ⟨"ShareFiles", b!"SF", true, .int⟩,
     ⟨"Version", b!"VE", true, .str⟩, ⟨"Application", b!"AP", false, .str⟩,
     ⟨"MaxUpload", b!"US", false, .str⟩, ⟨"MaxDownload", b!"DS", false, .str⟩,
     ⟨"Slots", b!"SL", true, .int⟩, ⟨"SlotsFree", b!"FS", true, .int⟩, ⟨"AutoSlotLimit", b!"AS", false, .int⟩,
     ⟨"Email", b!"EM", false, .str⟩, ⟨"Desc", b!"DE", false, .str⟩,
     ⟨"HubsNormal", b!"HN", true, .int⟩, ⟨"HubsRegistered", b!"HR", true, .int⟩, ⟨"HubsOperator", b!"HO", true, .int⟩,
     ⟨"Token", b!"TO", false, .str⟩, ⟨"Type", b!"CT", false, .int⟩, ⟨"Away", b!"AW", false, .int⟩, ⟨"Ref", b!"RF", false, .str⟩,
     ⟨"Features", b!"SU", true, .feats⟩, ⟨"KP", b!"KP", false, .str⟩, ⟨"Address", b!"EA", false, .str⟩]
  | .hubInfo =>
    [⟨"Name", b!"NI", true, .str⟩, ⟨"Version", b!"VE", true, .str⟩, ⟨"Application", b!"AP", false, .str⟩,
     ⟨"Desc", b!"DE", false, .str⟩, ⟨"Type", b!"CT", false, .int⟩, ⟨"Address", b!"HH", false, .str⟩,
     ⟨"Website", b!"WS", false, .str⟩, ⟨"Network", b!"NE", false, .str⟩, ⟨"Owner", b!"OW", false, .str⟩,
     ⟨"Users", b!"UC", false, .int⟩, ⟨"Share", b!"SS", false, .int⟩, ⟨"Files", b!"SF", false, .int⟩,
     ⟨"MinShare", b!"MS", false, .int⟩, ⟨"MaxShare", b!"XS", false, .int⟩, ⟨"MinSlots", b!"ML", false, .int⟩,
     ⟨"MaxSlots", b!"XL", false, .int⟩, ⟨"UsersLimit", b!"MC", false, .int⟩, ⟨"Uptime", b!"UP", false, .int⟩,
     ⟨"MaxHubsUser", b!"XU", false, .int⟩, ⟨"MaxHubsReg", b!"XR", false, .int⟩, ⟨"MaxHubsOp", b!"XO", false, .int⟩]

/-- The method `Cmd` of the struct types: `adc/chat.go:14-16`, `connect.go:13-15` and `23-25`, `files.go:24-26`,
`hub.go:57-59`, `95-97` and `108-110`, `search.go:51-53` and `65-67`, `user.go:101-103` and `146-149`. -/
def StructType.cmd : StructType → MsgType
  | .chat => ⟨b!"MSG", rfl⟩
  | .revConnect => ⟨b!"RCM", rfl⟩
  | .connect => ⟨b!"CTM", rfl⟩
  | .getInfo => ⟨b!"GFI", rfl⟩
  | .userCommand => ⟨b!"CMD", rfl⟩
  | .password => ⟨b!"PAS", rfl⟩
  | .disconnect => ⟨b!"QUI", rfl⟩
  | .search => ⟨b!"SCH", rfl⟩
  | .result => ⟨b!"RES", rfl⟩
  | .userInfo => ⟨b!"INF", rfl⟩
  | .hubInfo => ⟨b!"INF", rfl⟩

/-- `Field`, `adc/messages.go:103-106`. -/
structure Field where
  tag : Bytes
  size : tag.length = 2
  value : Bytes
deriving DecidableEq

/-- `Fields`, `adc/messages.go:112`; nil and empty are not told apart. -/
abbrev Fields := List Field

/-- The loop of `Fields.MarshalADC`, `adc/messages.go:115-123`; `first` stands for `i == 0`. -/
def Fields.marshalLoop : Bool → Fields → Bytes
  | _, [] => []
  | first, f :: fs => (if first then [] else b!" ") ++ f.tag ++ String.marshal f.value ++ Fields.marshalLoop false fs

/-- `Fields.MarshalADC`, `adc/messages.go:114-125`. -/
def Fields.marshal (f : Fields) : Bytes := Fields.marshalLoop true f

/-- The loop of `Fields.UnmarshalADC`, `adc/messages.go:134-145`: the unescaped value is computed and not used. -/
def Fields.unmarshalLoop (mp : Fields) : List Bytes → Res Fields
  | [] => .ok mp
  | v :: sub =>
    if h : v.length < 2 then .err (.other 106)
    else
      match String.unmarshal (v.drop 2) with
      | .err e => .err e
      | .panic => .panic
      | .ok _ => Fields.unmarshalLoop (mp ++ [⟨v.take 2, by rw [List.length_take]; omega, v.drop 2⟩]) sub

/-- `Fields.UnmarshalADC`, `adc/messages.go:127-148`. -/
def Fields.unmarshal (data : Bytes) : Res Fields :=
  if data.length = 0 then .ok [] else Fields.unmarshalLoop [] (split data c!" ")

/-- `Status`, `adc/messages.go:184-188`. -/
structure Status where
  sev : Int
  code : Int
  msg : Bytes
deriving DecidableEq

/-- `fmt.Sprintf("%02d", n)`. -/
def pad2 (n : Int) : Bytes := if (itoa n).length < 2 then b!"0" ++ itoa n else itoa n

/-- `Status.MarshalADC`, `adc/messages.go:212-216`. -/
def Status.marshal (st : Status) : Bytes := itoa st.sev ++ pad2 st.code ++ b!" " ++ escape st.msg

/-- `Status.UnmarshalADC`, `adc/messages.go:218-231`. -/
def Status.unmarshal (s : Bytes) : Res Status :=
  let sub := splitMax s c!" " 2
  match sub with
  | [] => .panic
  | c :: rest =>
    match parseInt c 64 with
    | .err _ => .err (.other 107)
    | .panic => .panic
    | .ok code =>
      .ok ⟨code.tdiv 100, code.tmod 100, match rest with | [] => [] | m :: _ => unescape m⟩

/-- `Status.Ok`, `Recoverable` and `Err`, `adc/messages.go:194-210`; `Err` gives "does not exist", an error with the status, or nothing. -/
def Status.ok (st : Status) : Bool := st.sev == 0

/-- `adc/messages.go:198-200`. -/
def Status.recoverable (st : Status) : Bool := st.ok || st.sev == 1

/-- The results of `Status.Err`. -/
inductive StatusErr where
  | notExist
  | error (st : Status)
deriving DecidableEq

/-- `adc/messages.go:202-210`. -/
def Status.err (st : Status) : Option StatusErr :=
  if !st.ok then (if st.code = 51 then some .notExist else some (.error st)) else none

/-- `GetRequest` and `GetResponse`, `adc/files.go:33-39` and `107`. -/
structure GetRequest where
  typ : Bytes
  path : Bytes
  start : Int
  bytes : Int
  compressed : Bool
deriving DecidableEq

/-- `GetRequest.MarshalADC`, `adc/files.go:45-57`. -/
def GetRequest.marshal (m : GetRequest) : Bytes :=
  escape m.typ ++ b!" " ++ escape m.path ++ b!" " ++ itoa m.start ++ b!" " ++ itoa m.bytes ++
    (if m.compressed then b!" ZL1" else [])

/-- `GetRequest.UnmarshalADC`, `adc/files.go:59-105`; `cur` is the value before the call. -/
def GetRequest.unmarshal (data : Bytes) (cur : GetRequest) : Res GetRequest :=
  match indexByte data c!" " with
  | none => .err (.other 108)
  | some i =>
    let typ := data.take i
    let data := data.drop (i + 1)
    match indexByte data c!" " with
    | none => .err (.other 109)
    | some i =>
      let path := data.take i
      let data := data.drop (i + 1)
      match indexByte data c!" " with
      | none => .err (.other 110)
      | some i =>
        let start := data.take i
        let data := data.drop (i + 1)
        match parseInt start 64 with
        | .panic => .panic
        | .err _ => .err (.other 111)
        | .ok start =>
          let (length, data) := match indexByte data c!" " with
            | none => (data, [])
            | some i => (data.take i, data.drop (i + 1))
          match parseInt length 64 with
          | .panic => .panic
          | .err _ => .err (.other 112)
          | .ok bytes =>
            if data.length > 0 then
              if data ≠ b!"ZL1" then .err (.other 113)
              else .ok ⟨unescape typ, unescape path, start, bytes, true⟩
            else .ok ⟨unescape typ, unescape path, start, bytes, cur.compressed⟩

/-- `GetPassword.MarshalADC`, `adc/hub.go:76-82`. -/
def GetPassword.marshal (salt : Bytes) : Bytes := Base32.encode salt

/-- `GetPassword.UnmarshalADC`, `adc/hub.go:84-89`: the salt has the length `DecodedLen(len(data))`, whatever was decoded. -/
def GetPassword.unmarshal (data : Bytes) : Res Bytes :=
  let size := data.length * 5 / 8
  match Base32.decode size data with
  | .ok b => .ok (b ++ List.replicate (size - b.length) 0)
  | .err e => .err e
  | .panic => .panic

/-- The messages. -/
inductive Msg where
  /-- `*RawMessage`, `adc/messages.go:59-62` -/
  | raw (typ : MsgType) (data : Bytes)
  /-- `Supported`, `adc/messages.go:155-157` -/
  | supported (f : ModFeatures)
  | status (s : Status)
  /-- `ZOn`, `adc/messages.go:238-240` -/
  | zon
  /-- `ZOff`, `adc/messages.go:251-253` -/
  | zoff
  | get (r : GetRequest)
  /-- `GetResponse` -/
  | snd (r : GetRequest)
  /-- `SIDAssign`, `adc/hub.go:23-25` -/
  | sidAssign (id : SID)
  /-- `GetPassword`, `adc/hub.go:68-70` -/
  | getPassword (salt : Bytes)
  /-- `UserInfoMod`, `adc/user.go:18` -/
  | infoMod (f : Fields)
  | struct (t : StructType) (row : Row t.fields)

/-- The method `Cmd`: `adc/messages.go:64-66`, `159-161`, `190-192`, `242-244`, `255-257`, `adc/files.go:41-43`, `109-111`,
`adc/hub.go:27-29`, `72-74`, `adc/user.go:20-22`. -/
def Msg.cmd : Msg → MsgType
  | .raw typ _ => typ
  | .supported _ => ⟨b!"SUP", rfl⟩
  | .status _ => ⟨b!"STA", rfl⟩
  | .zon => ⟨b!"ZON", rfl⟩
  | .zoff => ⟨b!"ZOF", rfl⟩
  | .get _ => ⟨b!"GET", rfl⟩
  | .snd _ => ⟨b!"SND", rfl⟩
  | .sidAssign _ => ⟨b!"SID", rfl⟩
  | .getPassword _ => ⟨b!"GPA", rfl⟩
  | .infoMod _ => ⟨b!"INF", rfl⟩
  | .struct t _ => t.cmd

/-- `Marshal`, `adc/marshal.go:207-272`, with the methods `MarshalADC` of the messages. -/
def Msg.marshal : Msg → Res Bytes
  | .raw _ data => .ok data
  | .supported f => .ok f.marshal
  | .status s => .ok s.marshal
  | .zon => .ok []
  | .zoff => .ok []
  | .get r => .ok r.marshal
  | .snd r => .ok r.marshal
  | .sidAssign id => .ok id.marshal
  | .getPassword salt => .ok (GetPassword.marshal salt)
  | .infoMod f => .ok f.marshal
  | .struct t row => marshalRow t.fields row

section
variable [ParseFloat]

/-- `Unmarshal` into the message `cur`, `adc/marshal.go:99-159`, with the methods `UnmarshalADC` of the messages. -/
def Msg.unmarshalTo (data : Bytes) : Msg → Res Msg
  | .raw typ _ => .ok (.raw typ data)
  | .supported f => do let f ← ModFeatures.unmarshal data f; .ok (.supported f)
  | .status _ => do let s ← Status.unmarshal data; .ok (.status s)
  | .zon => .ok .zon
  | .zoff => .ok .zoff
  | .get r => do let r ← GetRequest.unmarshal data r; .ok (.get r)
  | .snd r => do let r ← GetRequest.unmarshal data r; .ok (.snd r)
  | .sidAssign _ => do let id ← SID.unmarshal data; .ok (.sidAssign id)
  | .getPassword _ => do let s ← GetPassword.unmarshal data; .ok (.getPassword s)
  | .infoMod _ => do let f ← Fields.unmarshal data; .ok (.infoMod f)
  | .struct t row => do let row ← unmarshalRow t.fields data row; .ok (.struct t row)

/-- The zero value of a struct type. -/
def StructType.new (t : StructType) : Msg := .struct t (Row.zero t.fields)

/-- The map `messages`, filled by the functions `init`: `adc/messages.go:15-20`, `chat.go:3-5`, `connect.go:3-6`,
`files.go:13-17`, `hub.go:10-16`, `search.go:5-8`, `user.go:8-11`. The zero value of a type stands for it. -/
def registered : List Msg :=
  [.supported none, .status ⟨0, 0, []⟩, .zon, .zoff, StructType.new .chat, StructType.new .revConnect, StructType.new .connect,
   StructType.new .getInfo, .get ⟨[], [], 0, 0, false⟩, .snd ⟨[], [], 0, 0, false⟩, .sidAssign default, StructType.new .userCommand,
   .getPassword [], StructType.new .password, StructType.new .disconnect, StructType.new .search, StructType.new .result,
   StructType.new .userInfo]

/-- Lookup of a name in the map `messages`. -/
def lookupType (name : MsgType) : Option Msg := registered.find? (fun m => m.cmd = name)

/-- `UnmarshalMessage`, `adc/messages.go:38-52`. -/
def unmarshalMessage (name : MsgType) (data : Bytes) : Res Msg :=
  match lookupType name with
  | none => .ok (.raw name data)
  | some z => z.unmarshalTo data

/-- `decodeMessage`, `adc/packets.go:46-62`. -/
def decodeMessage : Msg → Res Msg
  | .raw typ data => unmarshalMessage typ data
  | m => .ok m

/-- `decodeMessageTo`, `adc/packets.go:64-72`. -/
def decodeMessageTo (frm to : Msg) : Res Msg :=
  match frm with
  | .raw typ data => if to.cmd ≠ typ then .err (.other 115) else to.unmarshalTo data
  | _ => .err (.other 114)

end

/-- `UserInfo.Normalize`, `adc/user.go:105-111`, on the fields Application and Version. -/
def normalizeInfo (app ver : Bytes) : Bytes × Bytes :=
  if app = [] then
    match lastIndexByte ver c!" " with
    | some i => (ver.take i, ver.drop (i + 1))
    | none => (app, ver)
  else (app, ver)

end Verif.Adc
