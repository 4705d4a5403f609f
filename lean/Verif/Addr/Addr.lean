import Verif.Go.Slices
import Verif.Go.Numbers

/-!
# Hub addresses (`conn.go`, `adc/conn.go`, `nmdc/conn.go`)

`url.Parse` and `URL.String` are parameters (`UrlLib`).  `net.SplitHostPort` is modelled.
-/

namespace Verif.Addr

open Verif.Go

/-- `url.URL`: the fields the code looks at; `rest` stands for all others. -/
structure Url (α : Type) where
  scheme : Bytes
  host : Bytes
  path : Bytes
  rest : α

/-- `url.Parse` and `URL.String`. -/
structure UrlLib (α : Type) where
  parse : Bytes → Except Err (Url α)
  str : Url α → Bytes

/-- `net.SplitHostPort` of the standard library; the three errors about missing ports, colons and brackets are not told apart. -/
def splitHostPort (s : Bytes) : Except Err (Bytes × Bytes) :=
  match lastIndexByte s c!":" with
  | none => .error (.other 91)
  | some i =>
    if s.head? = some c!"[" then
      match indexByte s c!"]" with
      | none => .error (.other 92)
      | some e =>
        if e + 1 ≠ i then .error (.other 93)
        else if c!"[" ∈ s.drop 1 ∨ c!"]" ∈ s.drop (e + 1) then .error (.other 94)
        else .ok ((s.take e).drop 1, s.drop (i + 1))
    else if c!":" ∈ s.take i then .error (.other 95)
    else if c!"[" ∈ s ∨ c!"]" ∈ s then .error (.other 94)
    else .ok (s.take i, s.drop (i + 1))

variable {α : Type} (L : UrlLib α)

/-- `strings.TrimRight(u.Path, "/")`. -/
def trimSlash (p : Bytes) : Bytes := trimRight p (· == c!"/")

/-- `adc.ParseAddr`, `adc/conn.go:19-29` (the URL that comes with the error is left out). -/
def adcParseAddr (addr : Bytes) : Except Err (Url α) :=
  match L.parse addr with
  | .error e => .error e
  | .ok u =>
    if u.scheme ≠ b!"adc" ∧ u.scheme ≠ b!"adcs" then .error (.other 96)
    else .ok { u with path := trimSlash u.path }

/-- `adc.NormalizeAddr`, `adc/conn.go:32-44`. -/
def adcNormalizeAddr (addr : Bytes) : Except Err Bytes :=
  match adcParseAddr L addr with
  | .error e => .error e
  | .ok u =>
    match splitHostPort u.host with
    | .error e => .error e
    | .ok (host, _) => if host = [] then .error (.other 97) else .ok (L.str u)

/-- `nmdc.ParseAddr`, `nmdc/conn.go:18-34`. -/
def nmdcParseAddr (addr : Bytes) : Except Err (Url α) :=
  let addr := if contains addr b!"://" then addr else b!"dchub" ++ b!"://" ++ addr
  match L.parse addr with
  | .error e => .error e
  | .ok u =>
    let u := if u.scheme = b!"nmdc" then { u with scheme := b!"dchub" } else u
    if u.scheme ≠ b!"dchub" ∧ u.scheme ≠ b!"nmdcs" then .error (.other 96)
    else .ok { u with path := trimSlash u.path }

/-- `nmdc.NormalizeAddr`, `nmdc/conn.go:37-55`. -/
def nmdcNormalizeAddr (addr : Bytes) : Except Err Bytes :=
  match nmdcParseAddr L addr with
  | .error e => .error e
  | .ok u =>
    match splitHostPort u.host with
    | .ok (host, _) => if host = [] then .error (.other 97) else .ok (L.str u)
    | .error e =>
      match splitHostPort (u.host ++ b!":" ++ itoa 411) with
      | .error _ => .error e
      | .ok (host, _) => if host = [] then .error (.other 97) else .ok (L.str u)

/-- `dc.ParseAddr`, `conn.go:12-17`. -/
def parseAddr (addr : Bytes) : Except Err (Url α) :=
  if hasPrefix addr b!"adc" then adcParseAddr L addr else nmdcParseAddr L addr

/-- `dc.NormalizeAddr`, `conn.go:20-25`. -/
def normalizeAddr (addr : Bytes) : Except Err Bytes :=
  if hasPrefix addr b!"adc" then adcNormalizeAddr L addr else nmdcNormalizeAddr L addr

end Verif.Addr
