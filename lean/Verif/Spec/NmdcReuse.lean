import Verif.Nmdc.Message
import Verif.Go.Unicode

/-!
# What is left of the previous value of an NMDC message (specification)

A program may decode a line into a message that was used before.  For every type of message: which fields of the result come from
the line (`new`, what the line gives in a fresh message) and which are still those of the message that was there (`old`).  Of the
model only the types are used, and `strings.Split`, `strings.Index` and `strings.TrimSpace` of the standard library.
-/

namespace Verif.Spec.NmdcReuse

open Verif.Go Verif.Nmdc

/-- The text behind the first `c`; nothing if there is none. -/
def after (c : Byte) (d : Bytes) : Bytes := (d.dropWhile (· ≠ c)).drop 1

/-- The text behind the last `c`; all of it if there is none. -/
def afterLast (c : Byte) (d : Bytes) : Bytes := (d.reverse.takeWhile (· ≠ c)).reverse

/-- `$<`…`>` chat: the name stays unless the line begins with `<`. -/
def chat (old : ChatMessage) (d : Bytes) (new : ChatMessage) : ChatMessage :=
  { new with name := if d.head? = some c!"<" then new.name else old.name }

/-- A line with a type and a context only leaves path and command. -/
def userCommand (old : UserCommand) (d : Bytes) (new : UserCommand) : UserCommand :=
  if (split (trimSpaceU d) c!" ").length ≤ 2 then { new with path := old.path, command := old.command } else new

/-- A line without a sender leaves the sender; once secure, always secure. -/
def connectToMe (old : ConnectToMe) (d : Bytes) (new : ConnectToMe) : ConnectToMe :=
  { new with src := if (split d c!" ").length ≤ 2 then old.src else new.src, secure := new.secure || old.secure }

/-- An empty text leaves the error. -/
def errMsg (old : Option Bytes) (new : Option Bytes) : Option Bytes := new.or old

/-- A field of the line that is missing leaves its value; software without a space leaves the version; the encoding is taken from
lines of exactly eleven fields. -/
def hubINFO (old : HubINFO) (d : Bytes) (new : HubINFO) : HubINFO :=
  let fs := split d c!"$"
  { name := new.name
    host := if 1 < fs.length then new.host else old.host
    desc := if 2 < fs.length then new.desc else old.desc
    i1 := if 3 < fs.length then new.i1 else old.i1
    i2 := if 4 < fs.length then new.i2 else old.i2
    i3 := if 5 < fs.length then new.i3 else old.i3
    i4 := if 6 < fs.length then new.i4 else old.i4
    soft := {
      name := if 7 < fs.length then new.soft.name else old.soft.name
      version := if c!" " ∈ fs.getD 7 [] then new.soft.version else old.soft.version }
    owner := if 8 < fs.length then new.owner else old.owner
    state := if 9 < fs.length then new.state else old.state
    encoding := if fs.length = 11 then new.encoding else old.encoding }

/-- Flags are never taken back. -/
def adcGet (old new : ADCGet) : ADCGet :=
  { new with compressed := new.compressed || old.compressed, downloaded := new.downloaded.or old.downloaded }

/-- The flag is never taken back. -/
def adcSnd (old new : ADCSnd) : ADCSnd := { new with compressed := new.compressed || old.compressed }

/-- A search through the hub leaves the address, one with an address leaves the user; a search for a hash leaves the pattern, any
other leaves the hash; an empty size leaves the size. -/
def search (old : Search) (d : Bytes) (new : Search) : Search :=
  { new with
    address := if b!"Hub:" <+: d then old.address else new.address
    user := if b!"Hub:" <+: d then new.user else old.user
    size := if (split (after c!" " d) c!"?")[2]? = some [] then old.size else new.size
    pattern := if new.dataType = 9 then old.pattern else new.pattern
    tth := if new.dataType = 9 then new.tth else old.tth }

/-- The part of a search result from the hub on. -/
def srHub (d : Bytes) (isDir : Bool) : Bytes := if isDir then after 5 (after c!" " d) else after 5 (after 5 (after c!" " d))

/-- What follows the parenthesis that opens the address of the hub: it is right behind a hash, and else the first one that follows
a space. -/
def srAddress (s : Bytes) (hash : Bool) : Bytes := if hash then s.drop 45 else s.drop ((index s b!" (").getD 0 + 2)

/-- A result with a hash leaves the name of the hub, one without leaves the hash; if the line ends behind the address of the hub,
the receiver stays. -/
def sr (old : SR) (d : Bytes) (new : SR) : SR :=
  { new with
    hubName := if new.tth.isSome then old.hubName else new.hubName
    tth := new.tth.or old.tth
    dst := if after c!")" (srAddress (srHub d new.isDir) new.tth.isSome) = [] then old.dst else new.dst }

/-- The fields of the line behind the name. -/
def infoParts (d : Bytes) : List Bytes := split (after c!" " (after c!" " d)) c!"$"

/-- The text behind the name of the client. -/
def tagBody (t : Bytes) : Bytes :=
  match index t b!" V:" with
  | some i => t.drop (i + 1)
  | none =>
    match index t b!" v:" with
    | some i => t.drop (i + 1)
    | none => t

/-- The fields of the tag. -/
def tagParts (d : Bytes) : List Bytes :=
  let t := afterLast c!"<" ((infoParts d).getD 0 [])
  split (tagBody (if t.getLast? = some c!">" then t.dropLast else t)) c!","

/-- There is a tag. -/
def tagged (d : Bytes) : Bool := c!"<" ∈ (infoParts d).getD 0 []

/-- A field of the tag with a key of one letter. -/
def keyed (k k' : Byte) (f : Bytes) : Bool := f.take 2 = [k, c!":"] || f.take 2 = [k', c!":"]

/-- The tag has a field with this key. -/
def hasKey (k k' : Byte) (d : Bytes) : Bool := tagged d && (tagParts d).any (keyed k k')

/-- The tag has a field with the three numbers of hubs. -/
def hasHubs (d : Bytes) : Bool := tagged d && (tagParts d).any (fun f => keyed c!"H" c!"h" f && c!"/" ∈ f)

/-- Without a tag, all that is in it stays; what the tag does not have stays, but the extra fields and the name of the client are
taken from every tag; an empty connection leaves connection and flag, and an empty size the size. -/
def myINFO (old : MyINFO) (d : Bytes) (new : MyINFO) : MyINFO :=
  { new with
    client := {
      name := if tagged d then new.client.name else old.client.name
      version := if hasKey c!"V" c!"v" d then new.client.version else old.client.version }
    hubsNormal := if hasKey c!"H" c!"h" d then new.hubsNormal else old.hubsNormal
    hubsRegistered := if hasHubs d then new.hubsRegistered else old.hubsRegistered
    hubsOperator := if hasHubs d then new.hubsOperator else old.hubsOperator
    slots := if hasKey c!"S" c!"s" d then new.slots else old.slots
    extra := if tagged d then new.extra else old.extra
    conn := if (infoParts d).getD 2 [] = [] then old.conn else new.conn
    flag := if (infoParts d).getD 2 [] = [] then old.flag else new.flag
    shareSize := if (infoParts d).getD 4 [] = [] then old.shareSize else new.shareSize }

/-- What a line makes of a message that was `old`, if it makes `new` of a fresh one. -/
def kept (old : Msg) (d : Bytes) (new : Msg) : Msg :=
  match old, new with
  | .chat o, .chat n => .chat (chat o d n)
  | .userCommand o, .userCommand n => .userCommand (userCommand o d n)
  | .connectToMe o, .connectToMe n => .connectToMe (connectToMe o d n)
  | .errMsg k o, .errMsg _ n => .errMsg k (errMsg o n)
  | .hubINFO o, .hubINFO n => .hubINFO (hubINFO o d n)
  | .adcGet o, .adcGet n => .adcGet (adcGet o n)
  | .adcSnd o, .adcSnd n => .adcSnd (adcSnd o n)
  | .search o, .search n => .search (search o d n)
  | .sr o, .sr n => .sr (sr o d n)
  | .myINFO o, .myINFO n => .myINFO (myINFO o d n)
  | _, n => n

end Verif.Spec.NmdcReuse
