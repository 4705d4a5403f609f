import Verif.Spec.NmdcBack

/-!
# Which NMDC messages can be passed on (specification)

A hub decodes what one client sends and encodes it for the others.
-/

namespace Verif.Spec.NmdcRelay

open Verif.Nmdc Verif.Tiger Verif.Go Verif.Spec.NmdcWire Verif.Spec.NmdcReads

/-- A payload without escapes: no `&`, no `|`, and no old escape sequence. -/
def Clear (d : Bytes) : Prop := c!"&" ∉ d ∧ c!"|" ∉ d ∧ ∀ e ∈ legacyCodes, Absent e.1 d

/-- The names in a message. -/
def names : Msg → List Bytes
  | .chat m => [m.name]
  | .priv m => [m.to, m.frm, m.name]
  | .mcTo m => [m.to, m.frm]
  | .connectToMe m => [m.targ, m.src]
  | .revConnectToMe m => [m.frm, m.to]
  | .name _ n => [n]
  | .names _ l => l
  | .userIP l => l.map (·.name)
  | .search m => [m.user]
  | .sr m => [m.src, m.dst]
  | .sp m => [m.user]
  | .myINFO m => [m.name]
  | _ => []

/-- The names can be written: escaped they have at most 256 bytes. -/
def Short (m : Msg) : Prop := ∀ n ∈ names m, (escName n).length ≤ 256

/-- The messages that are read as they were after they have been passed on. -/
def Passes : Msg → Prop
  -- a text without a name does not begin with `<`
  | .chat m => m.name = [] → ¬ Begins b!"<" m.text
  -- the type is not negative, there are both a path and a command or neither, and the path has no space at its end
  | .userCommand m => 0 ≤ m.typ ∧ (m.path = [] ↔ m.command = []) ∧ ∀ s ∈ m.path.getLast?, s.getLast? ≠ some c!" "
  -- the recipient has a name, and there is a source exactly in requests of the kind `N`
  | .connectToMe m => m.targ ≠ [] ∧ (m.kind = 1 ↔ m.src ≠ [])
  -- there is an extension
  | .supports l => l ≠ []
  -- a hub software without a version has no space in its name
  | .hubINFO m => m.soft.version = [] → c!" " ∉ m.soft.name
  -- the length is -1 at least
  | .adcGet m => -1 ≤ m.length
  -- there is a data type, and without a restriction of the size the size is not a minimum
  | .search m => m.dataType ≠ 0 ∧ (m.sizeRestricted = false → m.isMaxSize = true)
  -- the path has no `$`
  | .sr m => ∀ s ∈ m.path, c!"$" ∉ s
  -- there are a mode and a flag, the mode is not a comma or `<`, and keys of one letter are not behind `Z` and not `<`
  | .myINFO m => m.mode ≠ 0 ∧ m.mode ≠ c!"," ∧ m.mode ≠ c!"<" ∧ m.flag ≠ 0 ∧ ∀ e ∈ m.extra, ∀ c, e.1 = [c] → c ≤ c!"Z" ∧ c ≠ c!"<"
  | _ => True

section
variable [HtmlEntities]

/-- A message is written by one program, which walks through maps in the order `ord`, and read by another. -/
def hop (ord : StrMap → StrMap) (m : Msg) : Res Msg := m.marshal none ord >>= m.fresh.unmarshal none

/-- It is passed on by one program after the other. -/
def hops : List (StrMap → StrMap) → Msg → Res Msg
  | [], m => .ok m
  | ord :: ords, m => hop ord m >>= hops ords

end

end Verif.Spec.NmdcRelay
