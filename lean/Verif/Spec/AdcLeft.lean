import Verif.Spec.AdcWire
import Verif.Spec.HashVar

/-!
# What a refused text leaves in an ADC message (specification)
-/

namespace Verif.Spec.AdcLeft

open Verif.Adc Verif.Tiger Verif.Spec.AdcWire

/-- The messages are of the same Go type. -/
def SameType : Msg → Msg → Prop
  | .raw t _, .raw t' _ => t = t'
  | .supported _, .supported _ => True
  | .status _, .status _ => True
  | .zon, .zon => True
  | .zoff, .zoff => True
  | .get _, .get _ => True
  | .snd _, .snd _ => True
  | .sidAssign _, .sidAssign _ => True
  | .getPassword _, .getPassword _ => True
  | .infoMod _, .infoMod _ => True
  | .struct t _, .struct t' _ => t = t'
  | _, _ => False

/-- A hash after a refused text: it begins with the bytes that the first characters of the text give, at least those of all full groups of eight
characters; the other bytes are left. -/
def LeftHash (cur : Hash) (s : Bytes) (v : Hash) : Prop :=
  ∃ bs, HashVar.Begun s bs ∧ bs.length ≤ 24 ∧ v.bytes = bs ++ cur.bytes.drop bs.length ∧ ∀ k ≤ 4, HashVar.Valid s (8 * k) → 5 * k ≤ bs.length

/-- A value of type `k` after a refused text: only hashes change. -/
def LeftVal : (k : Kind) → k.T → Bytes → k.T → Prop
  | .tth, cur, s, v => LeftHash cur s v
  | _, cur, _, v => v = cur

/-- A field with a tag after refused values. -/
def LeftField (k : Kind) (cur : k.T) : List Bytes → k.T → Prop
  | [], v => v = cur
  | s :: _, v => LeftVal k cur s v

/-- A struct after a refused text with these parts: up to some field all fields have been read; this one has no part or is refused; it is left as
said above, and the fields after it are untouched. -/
def LeftRow [ParseFloat] : (fs : List Fld) → List Bytes → Row fs → Row fs → Prop
  | [], _, _, _ => False
  | f :: fs, parts, (cur, curs), (v, row) =>
    match presence f with
    | .positional =>
      match parts with
      | [] => v = cur ∧ row = curs
      | s :: rest =>
        ((¬ ∃ x, Reads f.kind cur s x) ∧ LeftVal f.kind cur s v ∧ row = curs) ∨ (Reads f.kind cur s v ∧ LeftRow fs rest curs row)
    | _ =>
      ((¬ ∃ x, ReadsField f.kind cur (valuesOf f.tag parts) x) ∧ LeftField f.kind cur (valuesOf f.tag parts) v ∧ row = curs) ∨
        (ReadsField f.kind cur (valuesOf f.tag parts) v ∧ LeftRow fs parts curs row)

/-- A numeral without its sign. -/
def unsigned : Bytes → Bytes
  | c :: d => if c = c!"-" ∨ c = c!"+" then d else c :: d
  | [] => []

/-- The text is too large a number: a numeral that does not fit in 63 bits, or a text that begins with a numeral that does not fit in 64 bits. -/
def TooLarge (s : Bytes) : Prop :=
  (IsNumeral (unsigned s) ∧ 2 ^ 63 ≤ value (unsigned s)) ∨ ∃ p t, unsigned s = p ++ t ∧ IsNumeral p ∧ 2 ^ 64 ≤ value p

/-- A number after a refused text: the nearest one of 64 bits if the text is too large a number, 0 if it is none. -/
def LeftNumber (s : Bytes) (v : Int) : Prop :=
  (TooLarge s → v = if s.head? = some c!"-" then -(2 ^ 63) else 2 ^ 63 - 1) ∧ (¬ TooLarge s → v = 0)

/-- A numeral that fits in 64 bits. -/
def Fits (s : Bytes) (n : Int) : Prop := SignedNumeral s n ∧ -(2 ^ 63 : Int) ≤ n ∧ n < 2 ^ 63

/-- A file request after a refused text: the type, the path, the offset and the length have been read up to the place where the text is refused;
a number that is refused is assigned nevertheless. -/
inductive LeftGet (cur : GetRequest) : Bytes → GetRequest → Prop
  | typ {s : Bytes} : c!" " ∉ s → LeftGet cur s cur
  | path {a s t : Bytes} : c!" " ∉ a → c!" " ∉ s → Unescapes a t → LeftGet cur (a ++ c!" " :: s) { cur with typ := t }
  | start {a b s t p : Bytes} : c!" " ∉ a → c!" " ∉ b → c!" " ∉ s → Unescapes a t → Unescapes b p →
      LeftGet cur (a ++ c!" " :: (b ++ c!" " :: s)) { cur with typ := t, path := p }
  | badStart {a b c s t p : Bytes} {v : Int} : c!" " ∉ a → c!" " ∉ b → c!" " ∉ c → Unescapes a t → Unescapes b p →
      (¬ ∃ n, Fits c n) → LeftNumber c v →
      LeftGet cur (a ++ c!" " :: (b ++ c!" " :: (c ++ c!" " :: s))) { cur with typ := t, path := p, start := v }
  | badLength {a b c d s t p : Bytes} {n v : Int} : c!" " ∉ a → c!" " ∉ b → c!" " ∉ c → c!" " ∉ d → (s = [] ∨ s.head? = some c!" ") →
      Unescapes a t → Unescapes b p → Fits c n → (¬ ∃ n, Fits d n) → LeftNumber d v →
      LeftGet cur (a ++ c!" " :: (b ++ c!" " :: (c ++ c!" " :: (d ++ s)))) { cur with typ := t, path := p, start := n, bytes := v }
  | badFlag {a b c d s t p : Bytes} {n l : Int} : c!" " ∉ a → c!" " ∉ b → c!" " ∉ c → c!" " ∉ d → s ≠ [] → s ≠ b!"ZL1" →
      Unescapes a t → Unescapes b p → Fits c n → Fits d l →
      LeftGet cur (a ++ c!" " :: (b ++ c!" " :: (c ++ c!" " :: (d ++ c!" " :: s)))) { cur with typ := t, path := p, start := n, bytes := l }

/-- The names given for a tag. -/
def Names (tag : Bytes) (parts names : List Bytes) : Prop :=
  List.length names = (valuesOf tag parts).length ∧ ∀ x ∈ (valuesOf tag parts).zip names, Unescapes x.1 x.2

/-- Feature changes after a refused text: the names to remove come first, then those to add; all names before the first one that has not four bytes
have been taken, and the map is there even if it was nil. -/
def LeftFeatures (cur : ModFeatures) (s : Bytes) (m : ModFeatures) : Prop :=
  ∃ (parts adds rms : List Bytes) (on off : List Feature), Parts c!" " s parts ∧ Names b!"AD" parts adds ∧ Names b!"RM" parts rms ∧
    ((∃ bad rest, rms = off.map Feature.bytes ++ bad :: rest ∧ bad.length ≠ 4 ∧ on = []) ∨
      (rms = off.map Feature.bytes ∧ ∃ bad rest, adds = on.map Feature.bytes ++ bad :: rest ∧ bad.length ≠ 4)) ∧
    m.isSome ∧ ∀ k, m.get k = if k ∈ on then some true else if k ∈ off then some false else cur.get k

/-- A salt after a refused text: as long as the text could give, the bytes of its first characters, at least those of all full groups of eight
characters, then zeros. -/
def LeftSalt (s : Bytes) (v : Bytes) : Prop :=
  v.length = s.length * 5 / 8 ∧ ∃ bs z, HashVar.Begun s bs ∧ v = bs ++ z ∧ (∀ b ∈ z, b = 0) ∧
    ∀ k, HashVar.Valid s (8 * k) → 5 * k ≤ bs.length

/-- A message after a refused text. -/
inductive Left [ParseFloat] (s : Bytes) : Msg → Msg → Prop
  | supported {f f' : ModFeatures} : LeftFeatures f s f' → Left s (.supported f) (.supported f')
  | status (st : Status) : Left s (.status st) (.status st)
  | get {r r' : GetRequest} : LeftGet r s r' → Left s (.get r) (.get r')
  | snd {r r' : GetRequest} : LeftGet r s r' → Left s (.snd r) (.snd r')
  | sidAssign (id : SID) : Left s (.sidAssign id) (.sidAssign id)
  | getPassword (salt : Bytes) {v : Bytes} : LeftSalt s v → Left s (.getPassword salt) (.getPassword v)
  | infoMod (f : Fields) : Left s (.infoMod f) (.infoMod [])
  | struct {t : StructType} {cur row : Row t.fields} {parts : List Bytes} : Parts c!" " s parts → LeftRow t.fields parts cur row →
      Left s (.struct t cur) (.struct t row)

end Verif.Spec.AdcLeft
