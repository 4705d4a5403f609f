import Verif.Spec.NmdcWire
import Verif.Spec.AdcWire
import Verif.Go.Unicode

/-!
# Which texts are read as which NMDC messages (specification)

For every type of message, a relation between the payload and the value it is decoded to.  Of the model only the types are used
and two functions of the standard library: `html.UnescapeString` and, for maps, the assignment.
-/

namespace Verif.Spec.NmdcReads

open Verif.Nmdc Verif.Tiger Verif.Go Verif.Spec.NmdcWire
open Verif.Spec.AdcWire (Parts)

/-! ## Cutting -/

/-- The first `sep` in `d` has `a` before it and `b` after it. -/
def First (sep d a b : Bytes) : Prop := d = a ++ sep ++ b ∧ ∀ a' b', d = a' ++ sep ++ b' → a.length ≤ a'.length

/-- The last `sep` in `d` has `a` before it and `b` after it. -/
def Last (sep d a b : Bytes) : Prop := d = a ++ sep ++ b ∧ ∀ a' b', d = a' ++ sep ++ b' → a'.length ≤ a.length

/-- There is no `sep` in `d`. -/
def Absent (sep d : Bytes) : Prop := ∀ a b, d ≠ a ++ sep ++ b

/-- `d` begins with `p`. -/
def Begins (p d : Bytes) : Prop := ∃ r, d = p ++ r

/-- `d` cut at every `sep`, from left to right. -/
inductive Cuts (sep : Bytes) : Bytes → List Bytes → Prop
  | last {d : Bytes} : Absent sep d → Cuts sep d [d]
  | more {d a r : Bytes} {ps : List Bytes} : First sep d a r → Cuts sep r ps → Cuts sep d (a :: ps)

/-- `d` without one `suf` at its end, if it has it. -/
inductive Without (suf : Bytes) : Bytes → Bytes → Prop
  | there {d : Bytes} : Without suf (d ++ suf) d
  | absent {d : Bytes} : (∀ r, d ≠ r ++ suf) → Without suf d d

/-- The white space characters of Unicode. -/
def white : List Nat :=
  [0x09, 0x0A, 0x0B, 0x0C, 0x0D, 0x20, 0x85, 0xA0, 0x1680, 0x2000, 0x2001, 0x2002, 0x2003, 0x2004, 0x2005, 0x2006,
    0x2007, 0x2008, 0x2009, 0x200A, 0x2028, 0x2029, 0x202F, 0x205F, 0x3000]

/-- `t` is `d` without white space at its ends. -/
def Trims (d t : Bytes) : Prop :=
  ∃ a b : List Nat, (∀ r ∈ a, r ∈ white) ∧ (∀ r ∈ b, r ∈ white) ∧ d = a.flatMap utf8 ++ t ++ b.flatMap utf8 ∧
    ∀ r ∈ white, ∀ u, t ≠ utf8 r ++ u ∧ t ≠ u ++ utf8 r

/-! ## Values -/

/-- The old escape sequences. -/
def legacyCodes : List (Bytes × Byte) :=
  [(b!"/%DCN000%/", 0), (b!"/%DCN005%/", 5), (b!"/%DCN036%/", c!"$"), (b!"/%DCN096%/", c!"`"), (b!"/%DCN124%/", c!"|"), (b!"/%DCN126%/", c!"~")]

/-- The old escape sequences are replaced from left to right. -/
inductive Legacy : Bytes → Bytes → Prop
  | nil : Legacy [] []
  | code {k : Bytes} {c : Byte} {s t : Bytes} : (k, c) ∈ legacyCodes → Legacy s t → Legacy (k ++ s) (c :: t)
  | other {c : Byte} {s t : Bytes} : (∀ e ∈ legacyCodes, ¬ Begins e.1 (c :: s)) → Legacy s t → Legacy (c :: s) (c :: t)

section
variable [HtmlEntities]

/-- `d` unescaped and recoded is the UTF-8 text `s`. -/
def Decoded (dec : Codec) (d s : Bytes) : Prop := ∃ t, Legacy d t ∧ Recoded dec (htmlUnescape t) s ∧ IsUtf8 s

/-- A text: there is no NUL in it. -/
def ReadsText (dec : Codec) (d s : Bytes) : Prop := (0 : Byte) ∉ d ∧ Decoded dec d s

/-- A name: it has at most 256 bytes and no `$`, NUL, CR, LF or TAB. -/
def ReadsName (dec : Codec) (d s : Bytes) : Prop := d.length ≤ 256 ∧ (∀ b ∈ d, b ∉ b!"$\x00\r\n\t") ∧ Decoded dec d s

/-- An unsigned number of 64 bits, with spaces around it. -/
def ReadsNat (d : Bytes) (n : Nat) : Prop := ∃ t, Padded d t ∧ IsNumeral t ∧ value t = n ∧ n < 2 ^ 64

/-- A signed number of 64 bits, with spaces around it. -/
def ReadsInt (d : Bytes) (n : Int) : Prop := ∃ t, Padded d t ∧ SignedNumeral t n ∧ -(2 ^ 63 : Int) ≤ n ∧ n < 2 ^ 63

/-! ## Chat -/

/-- `v` begins with white space. -/
def White (v : Bytes) : Prop := ∃ r ∈ white, Begins (utf8 r) v

/-- The name and the text of a chat line after its `<`. -/
inductive ChatSplit : Bytes → Bytes → Bytes → Prop
  /-- nothing -/
  | empty : ChatSplit [] [] []
  /-- the name ends at the first `>` before white space, if that is on the first line -/
  | space {n t : Bytes} {r : Nat} : r ∈ white → c!"\r" ∉ n → c!"\n" ∉ n →
      (∀ u v, n = u ++ b!">" ++ v → ¬ White (v ++ b!">" ++ utf8 r ++ t)) → ChatSplit (n ++ b!">" ++ utf8 r ++ t) n t
  /-- if there is none, it ends at the last `>` of the first line -/
  | line {n l x : Bytes} : c!"\r" ∉ n ++ l → c!"\n" ∉ n ++ l → c!">" ∉ l → (∀ b ∈ x.head?, b = c!"\r" ∨ b = c!"\n") → l ++ x ≠ [] →
      (∀ u v, n ++ b!">" ++ l = u ++ b!">" ++ v → ¬ White (v ++ x)) → ChatSplit (n ++ b!">" ++ l ++ x) n (l ++ x)
  /-- but if that is the last byte, the name has as many bytes as there are after the `>` before it, one byte is dropped and the
  rest is the text -/
  | final {u v d : Bytes} : d = u ++ v ++ b!">" → c!"\r" ∉ d → c!"\n" ∉ d → c!">" ∉ v → (∀ b ∈ u.getLast?, b = c!">") →
      (∀ a b, u ++ v = a ++ b!">" ++ b → ¬ White (b ++ b!">")) → ChatSplit d (d.take v.length) (d.drop (v.length + 1))

/-- A chat message: without `<` it has no name, and that of the old value stays. -/
def ReadsChat (dec : Codec) (old : ChatMessage) (d : Bytes) (m : ChatMessage) : Prop :=
  (¬ Begins b!"<" d ∧ m.name = old.name ∧ ReadsText dec d m.text) ∨
    ∃ r n t, d = b!"<" ++ r ∧ ChatSplit r n t ∧ ReadsName dec n m.name ∧ ReadsText dec t m.text

/-- A private message. -/
def ReadsPrivate (dec : Codec) (d : Bytes) (m : PrivateMessage) : Prop :=
  ∃ a b c t r1 r2, First b!" From: " d a r1 ∧ First b!" $<" r1 b r2 ∧ First b!"> " r2 c t ∧
    ReadsName dec a m.to ∧ ReadsName dec b m.frm ∧ ReadsName dec c m.name ∧ ReadsText dec t m.text

/-- A message in the main chat for one user. -/
def ReadsMCTo (dec : Codec) (d : Bytes) (m : MCTo) : Prop :=
  ∃ a b t r, First b!" $" d a r ∧ First b!" " r b t ∧ ReadsName dec a m.to ∧ ReadsName dec b m.frm ∧ ReadsText dec t m.text

/-- The texts of a list. -/
inductive ReadsTexts (dec : Codec) : List Bytes → List Bytes → Prop
  | nil : ReadsTexts dec [] []
  | cons {d s : Bytes} {ds ss : List Bytes} : ReadsText dec d s → ReadsTexts dec ds ss → ReadsTexts dec (d :: ds) (s :: ss)

/-- The digits at the beginning of a text. -/
def Digits (d n : Bytes) : Prop := ∃ r, d = n ++ r ∧ (∀ b ∈ n, IsDigit b) ∧ ∀ b ∈ r.head?, ¬ IsDigit b

/-- A user command: `type context` or `type context path$command`; of the context only the digits at its beginning count, spaces at the
end of the path and empty parts of it do not. -/
def ReadsUserCommand (dec : Codec) (old : UserCommand) (d : Bytes) (m : UserCommand) : Prop :=
  ∃ t a n, Trims d t ∧ ReadsInt a m.typ ∧ ReadsInt n m.context ∧
    ((∃ b, First b!" " t a b ∧ Absent b!" " b ∧ Digits b n ∧ m.path = old.path ∧ m.command = old.command) ∨
      ∃ r b v p c k q ps, First b!" " t a r ∧ First b!" " r b v ∧ Digits b n ∧ First b!"$" v p c ∧ p ≠ [] ∧
        p = q ++ List.replicate k c!" " ∧ (∀ b ∈ q.getLast?, b ≠ c!" ") ∧ Parts c!"\\" q ps ∧
        ReadsTexts dec (ps.filter (· ≠ [])) m.path ∧ ReadsText dec c m.command)

/-! ## Connections -/

/-- The address of a connection request ends with letters: `N` or `R` for the kind, `S` for a secure connection. -/
inductive CtmAddress : Bytes → Bytes → Int → Bool → Prop
  | plain {a : Bytes} : (∀ b ∈ a.getLast?, b ≠ c!"S" ∧ b ≠ c!"N" ∧ b ≠ c!"R") → CtmAddress a a 0 false
  | kindN {a : Bytes} : CtmAddress (a ++ b!"N") a 1 false
  | kindR {a : Bytes} : CtmAddress (a ++ b!"R") a 2 false
  | secure {a : Bytes} : (∀ b ∈ a.getLast?, b ≠ c!"N" ∧ b ≠ c!"R") → CtmAddress (a ++ b!"S") a 0 true
  | secureN {a : Bytes} : CtmAddress (a ++ b!"NS") a 1 true
  | secureR {a : Bytes} : CtmAddress (a ++ b!"RS") a 2 true

/-- A connection request; the source and the flag of the old value stay if there are none. -/
def ReadsCtm (dec : Codec) (old : ConnectToMe) (d : Bytes) (m : ConnectToMe) : Prop :=
  ∃ a r addr s, First b!" " d a r ∧ ReadsName dec a m.targ ∧ CtmAddress addr m.address m.kind s ∧ m.secure = (s || old.secure) ∧
    ((Absent b!" " r ∧ addr = r ∧ m.src = old.src) ∨ ∃ b, First b!" " r addr b ∧ ReadsName dec b m.src)

/-- A request to be connected to. -/
def ReadsRctm (dec : Codec) (d : Bytes) (m : RevConnectToMe) : Prop :=
  ∃ a b, First b!" " d a b ∧ ReadsName dec a m.frm ∧ ReadsName dec b m.to

/-! ## Small messages -/

/-- An error message; without text the old one stays. -/
def ReadsErr (dec : Codec) (old : Option Bytes) (d : Bytes) (e : Option Bytes) : Prop :=
  ∃ s, ReadsText dec d s ∧ ((s = [] ∧ e = old) ∨ (s ≠ [] ∧ e = some s))

/-- A lock after the prefix. -/
def ReadsLockBody (d : Bytes) (m : Lock) : Prop :=
  (Absent b!" " d ∧ m.lock = d ∧ m.pk = [] ∧ m.ref = []) ∨
    ∃ r k, First b!" " d m.lock r ∧ (r = b!"Pk=" ++ k ∨ (¬ Begins b!"Pk=" r ∧ k = r)) ∧
      (First b!"Ref=" k m.pk m.ref ∨ (Absent b!"Ref=" k ∧ m.pk = k ∧ m.ref = []))

/-- A lock. -/
def ReadsLock (d : Bytes) (m : Lock) : Prop :=
  (∃ r, d = b!"EXTENDEDPROTOCOL" ++ r ∧ m.noExt = false ∧ ReadsLockBody r m) ∨
    (¬ Begins b!"EXTENDEDPROTOCOL" d ∧ m.noExt = true ∧ ReadsLockBody d m)

/-- The number that the flag `DBn` carries. -/
def DB (f : Bytes) (n : Nat) : Prop := ∃ r, f = b!"DB" ++ r ∧ ReadsNat r n

/-- The four fields of a file request or answer and what is after them; only the last separator may be missing. -/
def ReadsRange (dec : Codec) (d : Bytes) (typ ident : Bytes) (start : Nat) (len rest : Bytes) : Prop :=
  ∃ a b c r1 r2 r3, First b!" " d a r1 ∧ First b!" " r1 b r2 ∧ First b!" " r2 c r3 ∧ ReadsText dec a typ ∧ ReadsText dec b ident ∧
    ReadsNat c start ∧ (First b!" " r3 len rest ∨ (Absent b!" " r3 ∧ len = r3 ∧ rest = []))

/-- A file request: the length may be -1; the flags `ZL1` and `DBn` count, the last `DBn` wins, and flags of the old value stay. -/
def ReadsGet (dec : Codec) (old : ADCGet) (d : Bytes) (m : ADCGet) : Prop :=
  ∃ len rest fs, ReadsRange dec d m.contentType m.identifier m.start len rest ∧
    ((len = b!"-1" ∧ m.length = -1) ∨ (len ≠ b!"-1" ∧ ∃ n, ReadsNat len n ∧ m.length = signed n)) ∧
    Parts c!" " rest fs ∧ (m.compressed = true ↔ old.compressed = true ∨ b!"ZL1" ∈ fs) ∧
    (∀ f ∈ fs, Begins b!"DB" f → ∃ n, DB f n) ∧
    ((m.downloaded = old.downloaded ∧ ∀ f ∈ fs, ¬ Begins b!"DB" f) ∨
      ∃ l f r n, fs = l ++ f :: r ∧ DB f n ∧ m.downloaded = some n ∧ ∀ g ∈ r, ¬ Begins b!"DB" g)

/-- An answer to it: after the length there may only be `ZL1`. -/
def ReadsSnd (dec : Codec) (old : ADCSnd) (d : Bytes) (m : ADCSnd) : Prop :=
  ∃ len rest, ReadsRange dec d m.contentType m.identifier m.start len rest ∧ ReadsNat len m.length ∧
    ((rest = [] ∧ m.compressed = old.compressed) ∨ (rest = b!"ZL1" ∧ m.compressed = true))

/-- A direction with a number. -/
def ReadsDirection (d : Bytes) (m : Direction) : Prop :=
  ∃ a b, First b!" " d a b ∧ ((a = b!"Download" ∧ m.upload = false) ∨ (a = b!"Upload" ∧ m.upload = true)) ∧
    ReadsNat b m.number ∧ 1 ≤ m.number ∧ m.number ≤ 32767

/-- What the `i`-th field says, if there is one. -/
def Field (fs : List Bytes) (i : Nat) (says : Bytes → Prop) (keeps : Prop) : Prop :=
  match fs[i]? with
  | some f => says f
  | none => keeps

/-- The software: name and version are separated by the last space; without it the version of the old value stays. -/
def ReadsSoft (old : Software) (f : Bytes) (s : Software) : Prop :=
  Last b!" " f s.name s.version ∨ (Absent b!" " f ∧ s.name = f ∧ s.version = old.version)

/-- What a hub tells about itself: fields that are missing keep their value, those after the eleventh are ignored; the encoding counts only
if there is at most one of them. -/
def ReadsHub (dec : Codec) (old : HubINFO) (d : Bytes) (m : HubINFO) : Prop :=
  ∃ fs, Parts c!"$" d fs ∧ Field fs 0 (ReadsText dec · m.name) (m.name = old.name) ∧ Field fs 1 (m.host = ·) (m.host = old.host) ∧
    Field fs 2 (ReadsText dec · m.desc) (m.desc = old.desc) ∧ Field fs 3 (ReadsInt · m.i1) (m.i1 = old.i1) ∧
    Field fs 4 (ReadsInt · m.i2) (m.i2 = old.i2) ∧ Field fs 5 (ReadsInt · m.i3) (m.i3 = old.i3) ∧
    Field fs 6 (ReadsInt · m.i4) (m.i4 = old.i4) ∧ Field fs 7 (ReadsSoft old.soft · m.soft) (m.soft = old.soft) ∧
    Field fs 8 (ReadsText dec · m.owner) (m.owner = old.owner) ∧ Field fs 9 (ReadsText dec · m.state) (m.state = old.state) ∧
    Field fs 10 (fun f => m.encoding = if fs.length ≤ 11 then f else old.encoding) (m.encoding = old.encoding)

/-- The names of a list. -/
inductive ReadsNames (dec : Codec) : List Bytes → List Bytes → Prop
  | nil : ReadsNames dec [] []
  | cons {d s : Bytes} {ds ss : List Bytes} : ReadsName dec d s → ReadsNames dec ds ss → ReadsNames dec (d :: ds) (s :: ss)

/-- A list of names: `$$` between them and maybe after them. -/
def ReadsNameList (dec : Codec) (d : Bytes) (l : List Bytes) : Prop :=
  ∃ r, Without b!"$$" d r ∧ ((r = [] ∧ l = []) ∨ (r ≠ [] ∧ ∃ ps, Cuts b!"$$" r ps ∧ ReadsNames dec ps l))

/-- A user and their address after the last space. -/
def ReadsAddress (dec : Codec) (d : Bytes) (a : UserAddress) : Prop :=
  (∃ n, Last b!" " d n a.ip ∧ ReadsName dec n a.name) ∨ (Absent b!" " d ∧ a.ip = [] ∧ ReadsName dec d a.name)

/-- A list of them. -/
inductive ReadsAddresses (dec : Codec) : List Bytes → List UserAddress → Prop
  | nil : ReadsAddresses dec [] []
  | cons {d : Bytes} {a : UserAddress} {ds : List Bytes} {as : List UserAddress} : ReadsAddress dec d a → ReadsAddresses dec ds as →
      ReadsAddresses dec (d :: ds) (a :: as)

/-- A list of users with addresses: maybe a CR at the end and `$$` before it. -/
def ReadsUserIP (dec : Codec) (d : Bytes) (l : List UserAddress) : Prop :=
  ∃ r s ps, Without b!"\r" d r ∧ Without b!"$$" r s ∧ Cuts b!"$$" s ps ∧ ReadsAddresses dec ps l

/-! ## Searches -/

/-- `T` and `F`. -/
def Flag (d : Bytes) (v : Bool) : Prop := (d = b!"T" ∧ v = true) ∨ (d = b!"F" ∧ v = false)

/-- A search: `who restricted?max?size?type?what`.  An empty size is that of the old value; a negative one is 0 and lifts the restriction.
A search for a hash may have one `$` at its end. -/
def ReadsSearch (dec : Codec) (old : Search) (d : Bytes) (m : Search) : Prop :=
  ∃ w q r f0 f1 f2 f3 f4 r1 r2 r3, First b!" " d w q ∧
    ((∃ n, w = b!"Hub:" ++ n ∧ ReadsName dec n m.user ∧ m.address = old.address) ∨
      (¬ Begins b!"Hub:" w ∧ m.address = w ∧ m.user = old.user)) ∧
    First b!"?" q f0 r1 ∧ First b!"?" r1 f1 r2 ∧ First b!"?" r2 f2 r3 ∧ First b!"?" r3 f3 f4 ∧ Flag f0 r ∧ Flag f1 m.isMaxSize ∧
    ((f2 = [] ∧ m.size = old.size ∧ m.sizeRestricted = r) ∨
      (∃ t n, f2 = b!"-" ++ t ∧ ReadsNat t n ∧ m.size = 0 ∧ m.sizeRestricted = false) ∨
      (f2 ≠ [] ∧ ¬ Begins b!"-" f2 ∧ ReadsNat f2 m.size ∧ m.sizeRestricted = r)) ∧
    ReadsNat f3 m.dataType ∧
    ((m.dataType = 9 ∧ m.pattern = old.pattern ∧
        ∃ b h x, f4 = b!"TTH:" ++ b ∧ Without b!"$" b h ∧ m.tth = some x ∧ Base32.Names h x.bytes) ∨
      (m.dataType ≠ 9 ∧ m.tth = old.tth ∧ ∃ s, ReadsText dec f4 s ∧ m.pattern = s.map (fun c => if c = c!"$" then c!" " else c)))

/-- A digit or `/`. -/
def SlotChar (b : Byte) : Prop := IsDigit b ∨ b = c!"/"

/-- A directory: the slots are the digits and slashes at the end; the byte before them is dropped. -/
def DirSlots (d path slots : Bytes) : Prop :=
  ∃ x, d = path ++ [x] ++ slots ∧ ¬ SlotChar x ∧ (∀ b ∈ slots, SlotChar b) ∧ c!"/" ∈ slots

/-- A search result: a directory if the first part ends with slots, or else a file with its size. The path is not unescaped, but it must be
a text. -/
def ReadsSR (dec : Codec) (old : SR) (d : Bytes) (m : SR) : Prop :=
  ∃ a r1 p r2 path slots r3 f t r4 addr r5, First b!" " d a r1 ∧ ReadsName dec a m.src ∧ First b!"\x05" r1 p r2 ∧
    ((DirSlots p path slots ∧ r3 = r2 ∧ m.isDir = true ∧ m.size = 0) ∨
      ((∀ x y, ¬ DirSlots p x y) ∧ path = p ∧ m.isDir = false ∧ ∃ ss n, First b!"\x05" r2 ss r3 ∧ First b!" " ss n slots ∧ ReadsNat n m.size)) ∧
    (∃ s, ReadsText dec path s) ∧ Parts c!"\\" path m.path ∧
    First b!"/" slots f t ∧ ReadsInt f m.freeSlots ∧ ReadsInt t m.totalSlots ∧
    ((∃ h x, h.length = 39 ∧ r3 = b!"TTH:" ++ h ++ b!" (" ++ r4 ∧ m.tth = some x ∧ Base32.Names h x.bytes ∧ m.hubName = old.hubName) ∨
      (¬ Begins b!"TTH:" r3 ∧ m.tth = old.tth ∧ ∃ h, First b!" (" r3 h r4 ∧ ReadsText dec h m.hubName)) ∧
    First b!")" r4 addr r5 ∧ m.hubAddress = addr ∧
    ((r5 = [] ∧ m.dst = old.dst) ∨ ∃ n, r5 = b!"\x05" ++ n ∧ n ≠ [] ∧ ReadsName dec n m.dst)

/-- A short search by address. -/
def ReadsSA (d : Bytes) (m : SA) : Prop := ∃ h, h.length = 39 ∧ d = h ++ b!" " ++ m.address ∧ Base32.Names h m.tth.bytes

/-- A short search by name. -/
def ReadsSP (dec : Codec) (d : Bytes) (m : SP) : Prop :=
  ∃ h n, h.length = 39 ∧ d = h ++ b!" " ++ n ∧ Base32.Names h m.tth.bytes ∧ ReadsName dec n m.user

/-! ## Users -/

/-- Hub counts: nothing is one, a number is the first, or there are three. -/
inductive ReadsHubs : MyINFO → Bytes → MyINFO → Prop
  | none {m : MyINFO} : ReadsHubs m [] { m with hubsNormal := 1 }
  | one {m : MyINFO} {v : Bytes} {a : Int} : c!"/" ∉ v → ReadsInt v a → ReadsHubs m v { m with hubsNormal := a }
  | three {m : MyINFO} {v x y z : Bytes} {a b c : Int} : Parts c!"/" v [x, y, z] → ReadsInt x a → ReadsInt y b → ReadsInt z c →
      ReadsHubs m v { m with hubsNormal := a, hubsRegistered := b, hubsOperator := c }

/-- The letter that a one-letter key stands for. -/
def letter (k : Byte) : Byte := if c!"Z" < k then k - 32 else k

/-- One field of the tag: `client` is the name of the client so far. -/
inductive ReadsTagField : Bool → Bytes × MyINFO → Bytes → Bytes × MyINFO → Prop
  /-- nothing -/
  | empty {first : Bool} {s : Bytes × MyINFO} : ReadsTagField first s [] s
  /-- the first field may be the name of the client -/
  | client {f c : Bytes} {m : MyINFO} : f ≠ [] → c!":" ∉ f → ReadsTagField true (c, m) f (f, m)
  /-- a key of one letter -/
  | version {first : Bool} {k : Byte} {v c : Bytes} {m : MyINFO} : k ≠ c!":" → letter k = c!"V" →
      ReadsTagField first (c, m) ([k] ++ b!":" ++ v) (c, { m with client := { m.client with version := v } })
  | mode {first : Bool} {k x : Byte} {c : Bytes} {m : MyINFO} : k ≠ c!":" → letter k = c!"M" →
      ReadsTagField first (c, m) ([k] ++ b!":" ++ [x]) (c, { m with mode := x })
  | noMode {first : Bool} {k : Byte} {v c : Bytes} {m : MyINFO} : k ≠ c!":" → letter k = c!"M" → v.length ≠ 1 →
      ReadsTagField first (c, m) ([k] ++ b!":" ++ v) (c, { m with mode := 0 })
  | hubs {first : Bool} {k : Byte} {v c : Bytes} {m m' : MyINFO} : k ≠ c!":" → letter k = c!"H" → ReadsHubs m v m' →
      ReadsTagField first (c, m) ([k] ++ b!":" ++ v) (c, m')
  | slots {first : Bool} {k : Byte} {v c : Bytes} {a : Int} {m : MyINFO} : k ≠ c!":" → letter k = c!"S" → ReadsInt v a →
      ReadsTagField first (c, m) ([k] ++ b!":" ++ v) (c, { m with slots := a })
  | extra {first : Bool} {k : Byte} {v c : Bytes} {m : MyINFO} : k ≠ c!":" → letter k ∉ b!"VMHS" →
      ReadsTagField first (c, m) ([k] ++ b!":" ++ v) (c, { m with extra := m.extra.set (utf8 (letter k).toNat) v })
  /-- a longer key -/
  | long {first : Bool} {k v c : Bytes} {m : MyINFO} : c!":" ∉ k → 1 < k.length →
      ReadsTagField first (c, m) (k ++ b!":" ++ v) (c, { m with extra := m.extra.set k v })

/-- The fields one after the other. -/
inductive ReadsTagFields : Bool → Bytes × MyINFO → List Bytes → Bytes × MyINFO → Prop
  | nil {first : Bool} {s : Bytes × MyINFO} : ReadsTagFields first s [] s
  | cons {first : Bool} {s s' s'' : Bytes × MyINFO} {f : Bytes} {fs : List Bytes} : ReadsTagField first s f s' → ReadsTagFields false s' fs s'' →
      ReadsTagFields first s (f :: fs) s''

/-- The name of the client is before the version, the first ` V:` or else the first ` v:`. -/
inductive TagCut : Bytes → Bytes → Bytes → Prop
  | upper {tag c r : Bytes} : First b!" V:" tag c r → TagCut tag c (b!"V:" ++ r)
  | lower {tag c r : Bytes} : Absent b!" V:" tag → First b!" v:" tag c r → TagCut tag c (b!"v:" ++ r)
  | none {tag : Bytes} : Absent b!" V:" tag → Absent b!" v:" tag → TagCut tag [] tag

/-- The tag: a map of extra fields is made anew. -/
def ReadsTag (m : MyINFO) (tag : Bytes) (m' : MyINFO) : Prop :=
  ∃ c r fs c' m1, TagCut tag c r ∧ Parts c!"," r fs ∧ ReadsTagFields true (c, { m with extra := [] }) fs (c', m1) ∧
    m' = { m1 with client := { m1.client with name := c' } }

/-- Description and tag, which starts at the last `<` and may end with `>`. -/
inductive ReadsDesc : MyINFO → Bytes → Bytes → MyINFO → Bool → Prop
  | plain {m : MyINFO} {f : Bytes} : c!"<" ∉ f → ReadsDesc m f f { m with mode := 0 } false
  | tag {m m' : MyINFO} {f desc t tag : Bytes} : Last b!"<" f desc t → t ≠ [] → Without b!">" t tag → ReadsTag { m with mode := 0 } tag m' →
      ReadsDesc m f desc m' true

/-- Information about a user: `$ALL name description$mode$connection and flag$email$size$` and one more field. The mode counts only without a
tag; an empty connection or size keeps the old value; a size that is no number is 0. -/
def ReadsMyINFO (dec : Codec) (old : MyINFO) (d : Bytes) (m : MyINFO) : Prop :=
  ∃ name rest f1 mode f3 f4 f5 f6 desc m1 tagged s2 conn flag,
    (∃ r, d = b!"$ALL " ++ r ∧ First b!" " r name rest) ∧ Parts c!"$" rest [f1, [mode], f3, f4, f5, f6] ∧
    ReadsName dec name m.name ∧ ReadsDesc { old with name := m.name } f1 desc m1 tagged ∧ ReadsText dec desc m.desc ∧
    ((f3 = [] ∧ conn = m1.conn ∧ flag = m1.flag) ∨ ∃ t, f3 = t ++ [flag] ∧ ReadsText dec t conn) ∧ ReadsText dec f4 m.email ∧
    ((f5 = [] ∧ s2 = m1.shareSize) ∨ (f5 ≠ [] ∧ (ReadsNat f5 s2 ∨ (s2 = 0 ∧ ∀ n, ¬ ReadsNat f5 n)))) ∧
    m = { m1 with
      name := m.name, desc := m.desc, email := m.email, conn := conn, flag := flag, shareSize := s2
      mode := if tagged then m1.mode else if mode = c!" " then 0 else mode }

/-! ## All messages -/

/-- `d` is read as `m` by a message of the value `old`. -/
def Reads (dec : Codec) (old : Msg) (d : Bytes) (m : Msg) : Prop :=
  match old with
  | .chat o => ∃ x, m = .chat x ∧ ReadsChat dec o d x
  | .priv _ => ∃ x, m = .priv x ∧ ReadsPrivate dec d x
  | .mcTo _ => ∃ x, m = .mcTo x ∧ ReadsMCTo dec d x
  | .userCommand o => ∃ x, m = .userCommand x ∧ ReadsUserCommand dec o d x
  | .connectToMe o => ∃ x, m = .connectToMe x ∧ ReadsCtm dec o d x
  | .revConnectToMe _ => ∃ x, m = .revConnectToMe x ∧ ReadsRctm dec d x
  | .errMsg k o => ∃ x, m = .errMsg k x ∧ ReadsErr dec o d x
  | .name k _ => ∃ x, m = .name k x ∧ ReadsName dec d x
  | .text k _ => ∃ x, m = .text k x ∧ ReadsText dec d x
  | .noArgs k => m = .noArgs k ∧ d = []
  | .value k _ => m = .value k d
  | .failOver _ => ∃ l, m = .failOver l ∧ Parts c!"," d l
  | .supports _ => ∃ l, m = .supports (l.filter (· ≠ [])) ∧ Parts c!" " d l
  | .lock _ => ∃ x, m = .lock x ∧ ReadsLock d x
  | .hubINFO o => ∃ x, m = .hubINFO x ∧ ReadsHub dec o d x
  | .names k _ => ∃ l, m = .names k l ∧ ReadsNameList dec d l
  | .userIP _ => ∃ l, m = .userIP l ∧ ReadsUserIP dec d l
  | .adcGet o => ∃ x, m = .adcGet x ∧ ReadsGet dec o d x
  | .adcSnd o => ∃ x, m = .adcSnd x ∧ ReadsSnd dec o d x
  | .direction _ => ∃ x, m = .direction x ∧ ReadsDirection d x
  | .search o => ∃ x, m = .search x ∧ ReadsSearch dec o d x
  | .sr o => ∃ x, m = .sr x ∧ ReadsSR dec o d x
  | .sa _ => ∃ x, m = .sa x ∧ ReadsSA d x
  | .sp _ => ∃ x, m = .sp x ∧ ReadsSP dec d x
  | .myINFO o => ∃ x, m = .myINFO x ∧ ReadsMyINFO dec o d x
  | .raw t _ => m = .raw t d

end

end Verif.Spec.NmdcReads
