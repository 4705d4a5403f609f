import Verif.Adc.Messages
import Verif.Spec.Base32
import Verif.Spec.Decimal

/-!
# The text of ADC messages (specification)

Only the types are taken from the model: `Kind` and `Row`, the types of the fields and of the values of structs, and the list of
struct types.  What is said of them here is said again, without the functions of the model.
-/

namespace Verif.Spec.AdcWire

open Verif.Adc Verif.Tiger

/-! ## Texts -/

/-- Escaped text: spaces, newlines and backslashes are written as `\s`, `\n` and `\\`. -/
def esc (s : Bytes) : Bytes :=
  s.flatMap (fun c => if c = c!" " then b!"\\s" else if c = c!"\n" then b!"\\n" else if c = c!"\\" then b!"\\\\" else [c])

/-- Text read from left to right: the three escape sequences are replaced, everything else stays. -/
inductive Unescapes : Bytes → Bytes → Prop
  | nil : Unescapes [] []
  | space {s t : Bytes} : Unescapes s t → Unescapes (c!"\\" :: c!"s" :: s) (c!" " :: t)
  | newline {s t : Bytes} : Unescapes s t → Unescapes (c!"\\" :: c!"n" :: s) (c!"\n" :: t)
  | backslash {s t : Bytes} : Unescapes s t → Unescapes (c!"\\" :: c!"\\" :: s) (c!"\\" :: t)
  | other {c : Byte} {s t : Bytes} : (c = c!"\\" → ∀ d ∈ s.head?, d ≠ c!"s" ∧ d ≠ c!"n" ∧ d ≠ c!"\\") → Unescapes s t →
      Unescapes (c :: s) (c :: t)

/-- `s` consists of the parts `ps` with separators between them. -/
def Parts (sep : Byte) (s : Bytes) (ps : List Bytes) : Prop :=
  ps ≠ [] ∧ (∀ p ∈ ps, sep ∉ p) ∧ s = [sep].intercalate ps

/-! ## The fields of the messages -/

/-- When a field is written. -/
inductive Presence where
  /-- always, without tag: it is known by its position -/
  | positional
  /-- always -/
  | always
  /-- unless it is zero -/
  | optional
deriving DecidableEq

/-- A field: its name in the code, its tag, when it is written, its type. -/
abbrev Column := _root_.String × Bytes × Presence × Kind

/-- The fields of the messages, in the order in which they are written. -/
def table : StructType → List Column
  | .chat => [("Text", [], .positional, .str), ("PM", b!"PM", .optional, .ptr .sid), ("Me", b!"ME", .optional, .bool), ("TS", b!"TS", .optional, .int)]
  | .revConnect => [("Proto", [], .positional, .str), ("Token", [], .positional, .str)]
  | .connect => [("Proto", [], .positional, .str), ("Port", [], .positional, .int), ("Token", [], .positional, .str)]
  | .getInfo => [("Type", [], .positional, .str), ("Path", [], .positional, .str)]
  | .userCommand =>
    [("Path", [], .positional, .path), ("Command", b!"TT", .optional, .str), ("Category", b!"CT", .optional, .int),
     ("Remove", b!"RM", .optional, .int), ("Constrained", b!"CO", .optional, .int), ("Separator", b!"SP", .optional, .int)]
  | .password => [("Hash", [], .positional, .tth)]
  | .disconnect =>
    [("ID", [], .positional, .sid), ("Message", b!"MS", .optional, .str), ("By", b!"ID", .optional, .sid),
     ("Duration", b!"TL", .optional, .int), ("Redirect", b!"RD", .optional, .str)]
  | .search =>
    [("Token", b!"TO", .optional, .str), ("And", b!"AN", .optional, .slice .str), ("Not", b!"NO", .optional, .slice .str),
     ("Ext", b!"EX", .optional, .slice .str), ("Le", b!"LE", .optional, .int), ("Ge", b!"GE", .optional, .int),
     ("Eq", b!"EQ", .optional, .int), ("Type", b!"TY", .optional, .int), ("TTH", b!"TR", .optional, .ptr .tth),
     ("Group", b!"GR", .optional, .int), ("NoExt", b!"RX", .optional, .slice .str)]
  | .result =>
    [("Token", b!"TO", .optional, .str), ("Path", b!"FN", .optional, .str), ("Size", b!"SI", .optional, .int),
     ("Slots", b!"SL", .optional, .int), ("TTH", b!"TR", .optional, .ptr .tth)]
  | .userInfo =>
    [("Id", b!"ID", .optional, .cid), ("Pid", b!"PD", .optional, .ptr .cid), ("Name", b!"NI", .always, .str),
     ("Ip4", b!"I4", .optional, .str), ("Ip6", b!"I6", .optional, .str), ("Udp4", b!"U4", .optional, .int), ("Udp6", b!"U6", .optional, .int),
     ("ShareSize", b!"SS", .always, .int), ("ShareFiles", b!"SF", .always, .int), ("Version", b!"VE", .always, .str),
     ("Application", b!"AP", .optional, .str), ("MaxUpload", b!"US", .optional, .str), ("MaxDownload", b!"DS", .optional, .str),
     ("Slots", b!"SL", .always, .int), ("SlotsFree", b!"FS", .always, .int), ("AutoSlotLimit", b!"AS", .optional, .int),
     ("Email", b!"EM", .optional, .str), ("Desc", b!"DE", .optional, .str), ("HubsNormal", b!"HN", .always, .int),
     ("HubsRegistered", b!"HR", .always, .int), ("HubsOperator", b!"HO", .always, .int), ("Token", b!"TO", .optional, .str),
     ("Type", b!"CT", .optional, .int), ("Away", b!"AW", .optional, .int), ("Ref", b!"RF", .optional, .str),
     ("Features", b!"SU", .always, .feats), ("KP", b!"KP", .optional, .str), ("Address", b!"EA", .optional, .str)]
  | .hubInfo =>
    [("Name", b!"NI", .always, .str), ("Version", b!"VE", .always, .str), ("Application", b!"AP", .optional, .str),
     ("Desc", b!"DE", .optional, .str), ("Type", b!"CT", .optional, .int), ("Address", b!"HH", .optional, .str),
     ("Website", b!"WS", .optional, .str), ("Network", b!"NE", .optional, .str), ("Owner", b!"OW", .optional, .str),
     ("Users", b!"UC", .optional, .int), ("Share", b!"SS", .optional, .int), ("Files", b!"SF", .optional, .int),
     ("MinShare", b!"MS", .optional, .int), ("MaxShare", b!"XS", .optional, .int), ("MinSlots", b!"ML", .optional, .int),
     ("MaxSlots", b!"XL", .optional, .int), ("UsersLimit", b!"MC", .optional, .int), ("Uptime", b!"UP", .optional, .int),
     ("MaxHubsUser", b!"XU", .optional, .int), ("MaxHubsReg", b!"XR", .optional, .int), ("MaxHubsOp", b!"XO", .optional, .int)]

/-- When a field of the model is written. -/
def presence (f : Fld) : Presence := if f.tag = b!"#" then .positional else if f.req then .always else .optional

/-- A field of the model as a column of the table. -/
def column (f : Fld) : Column := (f.name, if f.tag = b!"#" then [] else f.tag, presence f, f.kind)

/-! ## What is written -/

/-- The text of one value. -/
def text : (k : Kind) → k.T → Bytes
  | .str, v => esc v
  | .int, v => decimal v
  | .bool, v => match v with | true => b!"1" | false => b!"0"
  | .sid, v => SID.bytes v
  | .cid, v => Base32.text (Hash.bytes v)
  | .tth, v => Base32.text (Hash.bytes v)
  | .feats, v => b!",".intercalate (List.map Feature.bytes v)
  | .path, v => b!"/".intercalate (List.map esc v)
  | .ptr k, v => match v with | none => [] | some v => text k v
  | .slice _, _ => []

/-- The texts of a field: one, or one for each element of a slice. -/
def texts : (k : Kind) → k.T → List Bytes
  | .slice k, v => List.map (text k) v
  | k, v => [text k v]

open Classical in
/-- The parts a field makes. -/
noncomputable def fieldParts (f : Fld) (v : f.kind.T) : List Bytes :=
  match presence f with
  | .positional => texts f.kind v
  | .always => (texts f.kind v).map (f.tag ++ ·)
  | .optional => if v = f.kind.zero then [] else (texts f.kind v).map (f.tag ++ ·)

/-- The parts of a message. -/
noncomputable def rowParts : (fs : List Fld) → Row fs → List Bytes
  | [], _ => []
  | f :: fs, (v, row) => fieldParts f v ++ rowParts fs row

/-- The text of a file request or of its answer: type, path, offset, length and the compression flag. -/
def getText (r : GetRequest) : Bytes :=
  b!" ".intercalate ([esc r.typ, esc r.path, decimal r.start, decimal r.bytes] ++ if r.compressed then [b!"ZL1"] else [])

/-- The text of a status: its severity, its code in at least two digits, its text. -/
def statusText (s : Status) : Bytes :=
  decimal s.sev ++ (if (decimal s.code).length < 2 then b!"0" else []) ++ decimal s.code ++ b!" " ++ esc s.msg

/-- The text of a message. -/
noncomputable def msgText : Msg → Bytes
  | .raw _ data => data
  | .supported f => b!" ".intercalate (f.entries.map (fun e => (if e.2 then b!"AD" else b!"RM") ++ e.1.bytes))
  | .status s => statusText s
  | .zon => []
  | .zoff => []
  | .get r => getText r
  | .snd r => getText r
  | .sidAssign id => id.bytes
  | .getPassword salt => Base32.text salt
  | .infoMod f => b!" ".intercalate (f.map (fun x => x.tag ++ esc x.value))
  | .struct t row => b!" ".intercalate (rowParts t.fields row)

/-! ## What is read -/

/-- Reading a number: nothing is zero, a numeral that fits in 64 bits is its value; of other texts a number in floating point
notation counts if it is integral, and leaves the old value if it is not. -/
def ReadsInt [ParseFloat] (cur : Int) (s : Bytes) (v : Int) : Prop :=
  if s = [] then v = 0
  else (SignedNumeral s v ∧ -(2 ^ 63 : Int) ≤ v ∧ v < 2 ^ 63) ∨
    ((¬ ∃ n, SignedNumeral s n ∧ -(2 ^ 63 : Int) ≤ n ∧ n < 2 ^ 63) ∧
      (ParseFloat.run s = .whole v ∨ (ParseFloat.run s = .fraction ∧ v = cur)))

/-- Reading features: nothing leaves the old ones. -/
def ReadsFeats (cur : List Feature) (s : Bytes) (v : List Feature) : Prop :=
  if s = [] then v = cur else Parts c!"," s (v.map Feature.bytes)

/-- Reading a path: its elements are added to the old ones. -/
def ReadsPath (cur : List Bytes) (s : Bytes) (v : List Bytes) : Prop :=
  ∃ es : List (Bytes × Bytes), Parts c!"/" s (es.map (·.1)) ∧ (∀ e ∈ es, Unescapes e.1 e.2) ∧ v = cur ++ es.map (·.2)

/-- `Reads k cur s v`: the text `s` is accepted for a value of type `k`, and gives `v`; `cur` was the value before. -/
def Reads [ParseFloat] : (k : Kind) → k.T → Bytes → k.T → Prop
  | .str, _, s, v => Unescapes s v
  | .int, cur, s, v => ReadsInt cur s v
  | .bool, _, s, v => (s = [] ∧ v = false) ∨ (∃ b, s = [b] ∧ (v = true ↔ b ≠ 0))
  | .sid, _, s, v => s = SID.bytes v
  | .cid, _, s, v => Base32.Names s (Hash.bytes v)
  | .tth, _, s, v => Base32.Names s (Hash.bytes v)
  | .feats, cur, s, v => ReadsFeats cur s v
  | .path, cur, s, v => ReadsPath cur s v
  | .ptr k, _, s, v => if s = [] then v = none else ∃ x, v = some x ∧ Reads k k.zero s x
  | .slice _, _, s, v => s = [] ∧ v = []

/-- All elements of a slice. -/
def ReadsAll [ParseFloat] (k : Kind) : List Bytes → List k.T → Prop
  | [], vs => vs = []
  | s :: ss, vs => ∃ x xs, vs = x :: xs ∧ Reads k k.zero s x ∧ ReadsAll k ss xs

/-- The types that take the first of several values; the others, slices apart, refuse to be given twice. -/
def takesFirst (k : Kind) : Prop := k = .sid ∨ k = .cid ∨ k = .tth ∨ k = .feats ∨ k = .path

/-- `ReadsField k cur vals v`: the values `vals` found for a field make it `v`. -/
def ReadsField [ParseFloat] (k : Kind) (cur : k.T) (vals : List Bytes) (v : k.T) : Prop :=
  match vals, k, cur, v with
  | [], _, cur, v => v = cur
  | s :: ss, .slice k, _, v => ReadsAll k (s :: ss) v
  | s :: ss, k, cur, v => (ss = [] ∨ takesFirst k) ∧ Reads k cur s v

/-- The values of a tag among the parts, in order. -/
def valuesOf (tag : Bytes) (parts : List Bytes) : List Bytes :=
  (parts.filter (fun p => decide (tag <+: p))).map (·.drop 2)

/-- `ReadsRow fs pos named cur row`: the parts `pos` are for the fields with positions, the parts `named` for those with tags. -/
def ReadsRow [ParseFloat] : (fs : List Fld) → List Bytes → List Bytes → Row fs → Row fs → Prop
  | [], pos, _, _, _ => pos = []
  | f :: fs, pos, named, (cur, curs), (v, row) =>
    match presence f with
    | .positional => ∃ s rest, pos = s :: rest ∧ Reads f.kind cur s v ∧ ReadsRow fs rest named curs row
    | _ => ReadsField f.kind cur (valuesOf f.tag named) v ∧ ReadsRow fs pos named curs row

end Verif.Spec.AdcWire
