import Verif.Nmdc.Message
import Verif.Spec.Base32
import Verif.Spec.Decimal

/-!
# The text of NMDC messages (specification)

Only the types of the messages are taken from the model.  What is written for each of them is said here as a list of pieces,
without the functions of the model.
-/

namespace Verif.Spec.NmdcWire

open Verif.Nmdc Verif.Tiger

/-! ## Pieces -/

/-- Text in the character set of the connection; `none` is no conversion. -/
def Recoded (c : Codec) (s t : Bytes) : Prop :=
  match c with
  | none => t = s
  | some f => f s = some t

/-- Escaped text. -/
def escText (s : Bytes) : Bytes :=
  s.flatMap (fun c => if c = c!"&" then b!"&amp;" else if c = c!"$" then b!"&#36;" else if c = c!"|" then b!"&#124;" else [c])

/-- Escaped name. -/
def escName (s : Bytes) : Bytes :=
  s.flatMap (fun c => if c = c!"&" then b!"&amp;" else if c = c!"$" then b!"&#36;" else if c = c!"|" then b!"&#124;"
    else if c = c!"<" then b!"&lt;" else if c = c!">" then b!"&gt;" else [c])

/-- What a message is made of. -/
inductive Piece where
  /-- these bytes -/
  | lit (s : Bytes)
  /-- a text without NUL, recoded and escaped -/
  | text (s : Bytes)
  /-- a name of at most 256 bytes without `$`, NUL, CR, LF and TAB, recoded and escaped -/
  | name (s : Bytes)
  /-- a decimal number -/
  | num (n : Int)
  /-- a hash in base32 -/
  | hash (h : Hash)
  /-- a search pattern: a text with `$` for spaces -/
  | pattern (s : Bytes)
deriving DecidableEq

/-- The bytes of a text. -/
def WritesText (enc : Codec) (s w : Bytes) : Prop := ∃ e, Recoded enc s e ∧ (0 : Byte) ∉ e ∧ w = escText e

/-- The bytes of a piece. -/
def Piece.Writes (enc : Codec) : Piece → Bytes → Prop
  | .lit s, w => w = s
  | .text s, w => WritesText enc s w
  | .name s, w => s.length ≤ 256 ∧ ∃ e, Recoded enc s e ∧ (∀ b ∈ e, b ∉ b!"$\x00\r\n\t") ∧ w = escName e
  | .num n, w => w = decimal n
  | .hash h, w => w = Base32.text h.bytes
  | .pattern s, w => ∃ v, WritesText enc s v ∧ w = v.map (fun c => if c = c!" " then c!"$" else c)

/-- The bytes of pieces one after the other. -/
inductive Written (enc : Codec) : List Piece → Bytes → Prop
  | nil : Written enc [] []
  | cons {p : Piece} {w : Bytes} {ps : List Piece} {ws : Bytes} : p.Writes enc w → Written enc ps ws → Written enc (p :: ps) (w ++ ws)

/-- Pieces with a separator between them. -/
def between (sep : Bytes) (ps : List Piece) : List Piece := ps.intersperse (.lit sep)

/-- A piece that is there only sometimes. -/
def opt (c : Prop) [Decidable c] (ps : List Piece) : List Piece := if c then ps else []

/-! ## Messages -/

/-- The 64 bits of a number read as an unsigned one. -/
def unsigned (n : Int) : Int := n % 2 ^ 64

/-- An unsigned number of 64 bits read as a signed one. -/
def signed (n : Nat) : Int := if n < 2 ^ 63 then n else n - 2 ^ 64

/-- `$ConnectToMe`: the letter that tells the kind of the request. -/
def ctmLetter (k : Int) : Option Bytes :=
  if k = 0 then some [] else if k = 1 then some b!"N" else if k = 2 then some b!"R" else none

/-- `$ConnectToMe`. It has a target; it has a source if and only if it is a request of kind 1. -/
def ctmForm (m : ConnectToMe) : Option (List Piece) :=
  match ctmLetter m.kind with
  | none => none
  | some k =>
    if m.targ = [] ∨ (m.kind = 1 ↔ m.src = []) then none
    else some ([.name m.targ, .lit b!" ", .lit m.address, .lit k] ++ opt (m.secure = true) [.lit b!"S"] ++
      opt (m.kind = 1) [.lit b!" ", .name m.src])

/-- The software of a hub. -/
def softForm (s : Software) : List Piece := [.lit s.name] ++ opt (s.version ≠ []) [.lit b!" ", .lit s.version]

/-- Who searches: the address, or else the name. -/
def whoForm (m : Search) : List Piece := if m.address = [] then [.lit b!"Hub:", .name m.user] else [.lit m.address]

/-- The size restriction of a search. -/
def limitForm (m : Search) : List Piece :=
  if m.sizeRestricted = true then (if m.isMaxSize = true then [.lit b!"T?T"] else [.lit b!"T?F"]) else [.lit b!"F?T"]

/-- What is searched for. -/
def whatForm (m : Search) : Option (List Piece) :=
  if m.dataType = 9 then m.tth.map fun h => [.lit b!"TTH:", .hash h] else some [.pattern m.pattern]

/-- `$Search`. The type 0 is written as 1. -/
def searchForm (m : Search) : Option (List Piece) :=
  (whatForm m).map fun what =>
    whoForm m ++ [.lit b!" "] ++ limitForm m ++ [.lit b!"?", .num m.size, .lit b!"?"] ++
      [.num (if m.dataType = 0 then 1 else m.dataType), .lit b!"?"] ++ what

/-- `$SR`. There is a path; the size is that of a file. -/
def srForm (m : SR) : Option (List Piece) :=
  if m.path = [] then none
  else some ([.name m.src, .lit b!" "] ++ between b!"\\" (m.path.map .text) ++ opt (m.isDir = false) [.lit b!"\x05", .num m.size] ++
    [.lit b!" ", .num m.freeSlots, .lit b!"/", .num m.totalSlots, .lit b!"\x05"] ++
    (match m.tth with
      | some h => [.lit b!"TTH:", .hash h]
      | none => [.text m.hubName]) ++
    [.lit b!" (", .lit m.hubAddress, .lit b!")"] ++ opt (m.dst ≠ []) [.lit b!"\x05", .name m.dst])

/-- The tag of `$MyINFO`; the extra fields in the given order. -/
def tagForm (m : MyINFO) (order : StrMap) : List Piece :=
  [.lit m.client.name, .lit b!" V:", .lit m.client.version, .lit b!",M:", .lit [if m.mode = 0 then c!" " else m.mode],
   .lit b!",H:", .num m.hubsNormal, .lit b!"/", .num m.hubsRegistered, .lit b!"/", .num m.hubsOperator, .lit b!",S:", .num m.slots] ++
    order.flatMap fun e => [.lit b!",", .lit e.1, .lit b!":", .lit e.2]

/-- `$MyINFO`. The flag 0 is written as 1. -/
def infoForm (m : MyINFO) (order : StrMap) : List Piece :=
  [.lit b!"$ALL ", .name m.name, .lit b!" ", .text m.desc, .lit b!"<"] ++ tagForm m order ++
    [.lit b!">$ $", .text m.conn, .lit [if m.flag = 0 then 1 else m.flag], .lit b!"$", .text m.email, .lit b!"$", .num m.shareSize, .lit b!"$"]

/-- The payload of a message; `none` is a message that cannot be written. -/
def form (order : StrMap → StrMap) : Msg → Option (List Piece)
  | .chat m => some (opt (m.name ≠ []) [.lit b!"<", .name m.name, .lit b!"> "] ++ [.text m.text])
  | .priv m => some [.name m.to, .lit b!" From: ", .name m.frm, .lit b!" $<", .name m.name, .lit b!"> ", .text m.text]
  | .mcTo m => some [.name m.to, .lit b!" $", .name m.frm, .lit b!" ", .text m.text]
  | .userCommand m => some ([.num (unsigned m.typ), .lit b!" ", .num (unsigned m.context)] ++
      opt (m.path ≠ []) ([.lit b!" "] ++ between b!"\\" (m.path.map .text)) ++ opt (m.command ≠ []) [.lit b!" $", .text m.command])
  | .connectToMe m => ctmForm m
  | .revConnectToMe m => some [.name m.frm, .lit b!" ", .name m.to]
  | .errMsg _ none => some []
  | .errMsg _ (some t) => some [.text t]
  | .name _ n => some [.name n]
  | .text _ s => some [.text s]
  | .noArgs _ => some []
  | .value _ s => some [.lit s]
  | .failOver l => some (between b!"," (l.map .lit))
  | .supports l => if l = [] then none else some (between b!" " (l.map .lit))
  | .lock m => some (opt (m.noExt = false) [.lit b!"EXTENDEDPROTOCOL"] ++ [.lit m.lock] ++ opt (m.pk ≠ []) [.lit b!" Pk=", .lit m.pk] ++
      opt (m.ref ≠ []) (opt (m.pk = []) [.lit b!" "] ++ [.lit b!"Ref=", .lit m.ref]))
  | .hubINFO m => some ([.text m.name, .lit b!"$", .lit m.host, .lit b!"$", .text m.desc, .lit b!"$", .num m.i1, .lit b!"$", .num m.i2,
      .lit b!"$", .num m.i3, .lit b!"$", .num m.i4, .lit b!"$"] ++ softForm m.soft ++
      [.lit b!"$", .text m.owner, .lit b!"$", .text m.state, .lit b!"$", .lit m.encoding])
  | .names _ [] => some [.lit b!"$$"]
  | .names _ l => some (l.flatMap fun n => [.name n, .lit b!"$$"])
  | .userIP l => some (l.flatMap fun a => [.name a.name, .lit b!" ", .lit a.ip, .lit b!"$$"])
  | .adcGet m => some ([.text m.contentType, .lit b!" ", .text m.identifier, .lit b!" ", .num m.start, .lit b!" ", .num m.length] ++
      opt (m.compressed = true) [.lit b!" ZL1"] ++
      match m.downloaded with
      | none => []
      | some n => [.lit b!" DB", .num n])
  | .adcSnd m => some ([.text m.contentType, .lit b!" ", .text m.identifier, .lit b!" ", .num m.start, .lit b!" ", .num m.length] ++
      opt (m.compressed = true) [.lit b!" ZL1"])
  | .direction m => some [.lit (if m.upload = true then b!"Upload" else b!"Download"), .lit b!" ", .num (signed m.number)]
  | .search m => searchForm m
  | .sr m => srForm m
  | .sa m => some [.hash m.tth, .lit b!" ", .lit m.address]
  | .sp m => some [.hash m.tth, .lit b!" ", .name m.user]
  | .myINFO m => some (infoForm m (order m.extra))
  | .raw _ d => some [.lit d]

/-- The command of a message; a chat message has none. -/
def command : Msg → Option Bytes
  | .chat _ => none
  | .priv _ => some b!"To:"
  | .mcTo _ => some b!"MCTo"
  | .userCommand _ => some b!"UserCommand"
  | .connectToMe _ => some b!"ConnectToMe"
  | .revConnectToMe _ => some b!"RevConnectToMe"
  | .errMsg .failed _ => some b!"Failed"
  | .errMsg .error _ => some b!"Error"
  | .name .hello _ => some b!"Hello"
  | .name .kick _ => some b!"Kick"
  | .name .close _ => some b!"Close"
  | .name .validateNick _ => some b!"ValidateNick"
  | .name .validateDenide _ => some b!"ValidateDenide"
  | .name .myNick _ => some b!"MyNick"
  | .name .quit _ => some b!"Quit"
  | .name .logedIn _ => some b!"LogedIn"
  | .text .hubName _ => some b!"HubName"
  | .text .hubTopic _ => some b!"HubTopic"
  | .text .setTopic _ => some b!"SetTopic"
  | .text .myPass _ => some b!"MyPass"
  | .text .botINFO _ => some b!"BotINFO"
  | .text .setIcon _ => some b!"SetIcon"
  | .text .setLogo _ => some b!"SetLogo"
  | .noArgs .zOn => some b!"ZOn"
  | .noArgs .hubIsFull => some b!"HubIsFull"
  | .noArgs .getTopic => some b!"GetTopic"
  | .noArgs .badPass => some b!"BadPass"
  | .noArgs .getPass => some b!"GetPass"
  | .noArgs .getNickList => some b!"GetNickList"
  | .noArgs .maxedOut => some b!"MaxedOut"
  | .value .version _ => some b!"Version"
  | .value .forceMove _ => some b!"ForceMove"
  | .value .key _ => some b!"Key"
  | .failOver _ => some b!"FailOver"
  | .supports _ => some b!"Supports"
  | .lock _ => some b!"Lock"
  | .hubINFO _ => some b!"HubINFO"
  | .names .opList _ => some b!"OpList"
  | .names .botList _ => some b!"BotList"
  | .userIP _ => some b!"UserIP"
  | .adcGet _ => some b!"ADCGET"
  | .adcSnd _ => some b!"ADCSND"
  | .direction _ => some b!"Direction"
  | .search _ => some b!"Search"
  | .sr _ => some b!"SR"
  | .sa _ => some b!"SA"
  | .sp _ => some b!"SP"
  | .myINFO _ => some b!"MyINFO"
  | .raw t _ => if t = [] then none else some t

/-- The line of a message with the given payload: `$Command payload|`, `$Command|`, or `payload|` without a command. A line is
not empty: that would be a keep-alive. -/
inductive LineOf : Option Bytes → Bytes → Bytes → Prop
  | command {c p : Bytes} : p ≠ [] → LineOf (some c) p (b!"$" ++ c ++ b!" " ++ p ++ b!"|")
  | bare {c : Bytes} : LineOf (some c) [] (b!"$" ++ c ++ b!"|")
  | chat {p : Bytes} : p ≠ [] → LineOf none p (p ++ b!"|")

end Verif.Spec.NmdcWire
