import Verif.Spec.NmdcReads

/-!
# Which NMDC values come back from the wire (specification)
-/

namespace Verif.Spec.NmdcBack

open Verif.Nmdc Verif.Tiger Verif.Go Verif.Spec.NmdcWire Verif.Spec.NmdcReads

/-- A text that comes back: UTF-8 without NUL in which no old escape sequence occurs. -/
def Text (s : Bytes) : Prop := (0 : Byte) ∉ s ∧ IsUtf8 s ∧ ∀ e ∈ legacyCodes, Absent e.1 s

/-- A name that comes back: as a text, without `$`, CR, LF and TAB, and escaped it has at most 256 bytes. -/
def Name (s : Bytes) : Prop :=
  (∀ b ∈ s, b ∉ b!"$\x00\r\n\t") ∧ IsUtf8 s ∧ (∀ e ∈ legacyCodes, Absent e.1 s) ∧ (escName s).length ≤ 256

/-! ## Messages -/

/-- A chat message: a text without a name does not begin with `<`. -/
def Chat (m : ChatMessage) : Prop := Text m.text ∧ ((m.name = [] ∧ ¬ Begins b!"<" m.text) ∨ (m.name ≠ [] ∧ Name m.name))

/-- A private message: the name of the recipient does not look like the rest of the message. -/
def Priv (m : PrivateMessage) : Prop :=
  Name m.to ∧ Name m.frm ∧ Name m.name ∧ Text m.text ∧ Absent b!" From: " (m.to ++ b!" ")

/-- A message in the main chat for one user: the name of the sender has no space. -/
def ToOne (m : MCTo) : Prop := Name m.to ∧ Name m.frm ∧ Text m.text ∧ c!" " ∉ m.frm

/-- A connection request: no spaces, and an address that does not end with what is read as a flag. -/
def Ctm (m : ConnectToMe) : Prop :=
  m.targ ≠ [] ∧ Name m.targ ∧ c!" " ∉ m.targ ∧ c!" " ∉ m.address ∧
    ((m.kind = 0 ∧ m.src = [] ∧ ∀ b ∈ m.address.getLast?, b ≠ c!"N" ∧ b ≠ c!"R" ∧ (m.secure = false → b ≠ c!"S")) ∨
      (m.kind = 1 ∧ m.src ≠ [] ∧ Name m.src) ∨ (m.kind = 2 ∧ m.src = []))

/-- A request to be connected to. -/
def Rctm (m : RevConnectToMe) : Prop := Name m.frm ∧ Name m.to ∧ c!" " ∉ m.frm

/-- An error message: none, or one with a text. -/
def Err (e : Option Bytes) : Prop := ∀ t ∈ e, t ≠ [] ∧ Text t

/-- Addresses of hubs: there is one, and no commas. -/
def Hosts (l : List Bytes) : Prop := l ≠ [] ∧ ∀ x ∈ l, c!"," ∉ x

/-- Extensions: there is one, none is empty, and no spaces. -/
def Words (l : List Bytes) : Prop := l ≠ [] ∧ ∀ x ∈ l, x ≠ [] ∧ c!" " ∉ x

/-- A lock: no space in it, nothing in the key that looks like a reference, and the prefix of the extended protocol only if it is meant. -/
def Lok (m : Lock) : Prop :=
  c!" " ∉ m.lock ∧ Absent b!"Ref=" m.pk ∧ (m.noExt = true → ¬ Begins b!"EXTENDEDPROTOCOL" m.lock)

/-- A list of names: not one empty name. -/
def Names (l : List Bytes) : Prop := (∀ n ∈ l, Name n) ∧ l ≠ [[]]

/-- A user with an address; `more` are those after them. -/
def Address (a : UserAddress) (more : Bytes) : Prop := Name a.name ∧ c!" " ∉ a.ip ∧ Absent b!"$$" (a.ip ++ more)

/-- A list of users with addresses: there is one; only the last address may end with `$`. -/
def Addresses : List UserAddress → Prop
  | [] => False
  | [a] => Address a []
  | a :: b :: l => Address a b!"$" ∧ Addresses (b :: l)

/-- A text without spaces. -/
def Word (s : Bytes) : Prop := Text s ∧ c!" " ∉ s

/-- A file request: numbers of 64 bits, and the length -1 at least. -/
def Get (m : ADCGet) : Prop :=
  Word m.contentType ∧ Word m.identifier ∧ m.start < 2 ^ 64 ∧ -1 ≤ m.length ∧ m.length < 2 ^ 63 ∧ ∀ n ∈ m.downloaded, n < 2 ^ 64

/-- An answer to it. -/
def Snd (m : ADCSnd) : Prop := Word m.contentType ∧ Word m.identifier ∧ m.start < 2 ^ 64 ∧ m.length < 2 ^ 64

/-- A signed number of 64 bits. -/
def Int64 (k : Int) : Prop := -(2 ^ 63 : Int) ≤ k ∧ k < 2 ^ 63

/-- What a hub tells about itself: no `$`, and no space in the version, or else in the name of the software. -/
def Hub (m : HubINFO) : Prop :=
  (∀ s ∈ [m.name, m.desc, m.owner, m.state], Text s) ∧ (∀ k ∈ [m.i1, m.i2, m.i3, m.i4], Int64 k) ∧
    (∀ s ∈ [m.host, m.soft.name, m.soft.version, m.encoding], c!"$" ∉ s) ∧
    c!" " ∉ (if m.soft.version = [] then m.soft.name else m.soft.version)

/-- A search: an address or a name without spaces, a comparison if there is a restriction of the size, a type, and a hash or a pattern without `$`
as the type tells. -/
def Searches (m : Search) : Prop :=
  ((m.address = [] ∧ Name m.user ∧ c!" " ∉ m.user) ∨ (m.address ≠ [] ∧ c!" " ∉ m.address ∧ ¬ Begins b!"Hub:" m.address ∧ m.user = [])) ∧
    (m.sizeRestricted = false → m.isMaxSize = true) ∧ m.size < 2 ^ 64 ∧ m.dataType ≠ 0 ∧ m.dataType < 2 ^ 64 ∧
    ((m.dataType = 9 ∧ m.pattern = [] ∧ m.tth ≠ none) ∨ (m.dataType ≠ 9 ∧ m.tth = none ∧ Text m.pattern ∧ c!"$" ∉ m.pattern))

/-- A user command: numbers that are not negative; neither path nor command, or both: parts of the path that are not empty, without backslashes,
no space at the end of the path and no white space at the end of the command. -/
def Command (m : UserCommand) : Prop :=
  (0 ≤ m.typ ∧ m.typ < 2 ^ 63) ∧ (0 ≤ m.context ∧ m.context < 2 ^ 63) ∧
    ((m.path = [] ∧ m.command = []) ∨
      (m.path ≠ [] ∧ m.command ≠ [] ∧ (∀ s ∈ m.path, Text s ∧ s ≠ [] ∧ c!"\\" ∉ s) ∧ (∀ s ∈ m.path.getLast?, s.getLast? ≠ some c!" ") ∧
        Text m.command ∧ ∀ r ∈ white, ∀ u, m.command ≠ u ++ utf8 r))

/-- A path whose parts need no escapes; old escape sequences in it stay as they are. -/
def Path (l : List Bytes) : Prop :=
  l ≠ [] ∧ (∀ s ∈ l, ∀ b ∈ s, b ∉ b!"\x00\x05\\&$|") ∧ IsUtf8 (b!"\\".intercalate l)

/-- A search result: a directory has no size and no negative slots, the path of a file does not end like that of a directory,
there is a hash or the name of a hub, and the address has no `)`. -/
def Result (m : SR) : Prop :=
  Name m.src ∧ c!" " ∉ m.src ∧ Path m.path ∧
    (m.isDir = true → m.size = 0 ∧ (0 ≤ m.freeSlots ∧ m.freeSlots < 2 ^ 63) ∧ (0 ≤ m.totalSlots ∧ m.totalSlots < 2 ^ 63)) ∧
    (m.isDir = false → m.size < 2 ^ 64 ∧ Int64 m.freeSlots ∧ Int64 m.totalSlots ∧ ∀ x y, ¬ DirSlots (b!"\\".intercalate m.path) x y) ∧
    (m.tth ≠ none → m.hubName = []) ∧ (m.tth = none → Text m.hubName ∧ Absent b!" (" m.hubName ∧ ¬ Begins b!"TTH:" m.hubName) ∧
    c!")" ∉ m.hubAddress ∧ (m.dst ≠ [] → Name m.dst)

/-- What may be in the tag of a user: no comma, `<` or `$`. -/
def Tagged (s : Bytes) : Prop := ∀ b ∈ s, b ∉ b!",<$"

/-- The key of an extra field: one letter is not a small one, and none of the four that have a meaning. -/
def Key (k : Bytes) : Prop := k ≠ [] ∧ Tagged k ∧ c!":" ∉ k ∧ ∀ c, k = [c] → c ≤ c!"Z" ∧ c ∉ b!"VMHS"

/-- Information about a user: there is a mode and a flag, and nothing in the tag that looks like another part of it. -/
def Info (m : MyINFO) : Prop :=
  Name m.name ∧ c!" " ∉ m.name ∧ (∀ s ∈ [m.desc, m.conn, m.email], Text s) ∧
    (∀ b ∈ m.client.name, b ∉ b!"<$") ∧ Absent b!" V:" m.client.name ∧ Tagged m.client.version ∧
    m.mode ≠ 0 ∧ Tagged [m.mode] ∧ m.flag ≠ 0 ∧ m.flag ≠ c!"$" ∧
    (∀ k ∈ [m.hubsNormal, m.hubsRegistered, m.hubsOperator, m.slots], Int64 k) ∧ (∀ e ∈ m.extra, Key e.1 ∧ Tagged e.2) ∧ m.shareSize < 2 ^ 64

/-! ## All messages -/

/-- The messages that come back. -/
def Back : Msg → Prop
  | .chat m => Chat m
  | .priv m => Priv m
  | .mcTo m => ToOne m
  | .userCommand m => Command m
  | .connectToMe m => Ctm m
  | .revConnectToMe m => Rctm m
  | .errMsg _ e => Err e
  | .name _ n => Name n
  | .text _ s => Text s
  | .noArgs _ => True
  | .value _ _ => True
  | .failOver l => Hosts l
  | .supports l => Words l
  | .lock m => Lok m
  | .hubINFO m => Hub m
  | .names _ l => Names l
  | .userIP l => Addresses l
  | .adcGet m => Get m
  | .adcSnd m => Snd m
  | .direction m => 1 ≤ m.number ∧ m.number ≤ 32767
  | .search m => Searches m
  | .sr m => Result m
  | .sa _ => True
  | .sp m => Name m.user
  | .myINFO m => Info m
  | .raw _ _ => True

/-- The same message: the extra fields of a user are a map, kept as a list in some order. -/
inductive Same : Msg → Msg → Prop
  | refl (m : Msg) : Same m m
  | info (m : MyINFO) {e : StrMap} : e.Perm m.extra → Same (.myINFO m) (.myINFO { m with extra := e })

/-- The extra fields of a user are a map: no key is there twice. -/
def Mapped : Msg → Prop
  | .myINFO m => (m.extra.map (·.1)).Nodup
  | _ => True

end Verif.Spec.NmdcBack
