import Verif.Go.Slices
import Verif.Go.Numbers

/-!
# `url.Parse` and `URL.String` of the standard library

Package `net/url` as it is since Go 1.19.  Errors are not told apart.  `Parse` is called with `viaRequest` false.
-/

namespace Verif.Go.Url

open Verif.Go

/-- What a text is escaped for (`encoding`); the modes for queries and path segments are not used. -/
inductive Mode where
  | path
  | userPassword
  | host
  | zone
  | fragment
deriving DecidableEq

/-- ASCII letters and digits. -/
def isAlnum (c : Byte) : Bool :=
  (c!"a" ≤ c && c ≤ c!"z") || (c!"A" ≤ c && c ≤ c!"Z") || (c!"0" ≤ c && c ≤ c!"9")

/-- `shouldEscape`. -/
def shouldEscape (m : Mode) (c : Byte) : Bool :=
  if isAlnum c then false
  else if (m = .host ∨ m = .zone) ∧ c ∈ b!"!$&'()*+,;=:[]<>\"" then false
  else if c ∈ b!"-_.~" then false
  else if c ∈ b!"$&+,/:;=?@" ∧ m = .path then c == c!"?"
  else if c ∈ b!"$&+,/:;=?@" ∧ m = .userPassword then c == c!"@" || c == c!"/" || c == c!"?" || c == c!":"
  else if c ∈ b!"$&+,/:;=?@" ∧ m = .fragment then false
  else if m = .fragment ∧ c ∈ b!"!()*" then false
  else true

/-- `unhex` of a hexadecimal digit; `none` if it is not one (`ishex`). -/
def unhex (c : Byte) : Option Byte :=
  if c!"0" ≤ c ∧ c ≤ c!"9" then some (c - c!"0")
  else if c!"a" ≤ c ∧ c ≤ c!"f" then some (c - c!"a" + 10)
  else if c!"A" ≤ c ∧ c ≤ c!"F" then some (c - c!"A" + 10)
  else none

/-- The escapes `unescape` allows: in a host only bytes that are not ASCII and the percent sign, in a zone only the percent sign, the space
and what could be written directly. -/
def escapeOk (m : Mode) (a b v : Byte) : Bool :=
  match m with
  | .host => 128 ≤ v || (a == c!"2" && b == c!"5")
  | .zone => (a == c!"2" && b == c!"5") || v == c!" " || !shouldEscape .host v
  | _ => true

/-- `unescape`; the two passes of the program are one here. -/
def unescape (m : Mode) : Bytes → Option Bytes
  | [] => some []
  | c :: s =>
    if c = c!"%" then
      match s with
      | a :: b :: r =>
        match unhex a, unhex b with
        | some x, some y => if escapeOk m a b (16 * x + y) then (unescape m r).map fun t => (16 * x + y) :: t else none
        | _, _ => none
      | _ => none
    else if (m = .host ∨ m = .zone) ∧ c < 128 ∧ shouldEscape m c = true then none
    else (unescape m s).map (c :: ·)

/-- `upperhex[x]` for a number below 16. -/
def upperhex (x : Byte) : Byte := if x < 10 then c!"0" + x else c!"A" + (x - 10)

/-- One byte in `escape`. -/
def escapeByte (m : Mode) (c : Byte) : Bytes := if shouldEscape m c then [c!"%", upperhex (c / 16), upperhex (c % 16)] else [c]

/-- `escape`. -/
def escape (m : Mode) (s : Bytes) : Bytes := s.flatMap (escapeByte m)

/-- `validEncoded`. -/
def validEncoded (m : Mode) (s : Bytes) : Bool := s.all fun c => c ∈ b!"!$&'()*+,;=:@[]%" || !shouldEscape m c

/-- `url.URL`; `opaq` is `Opaque`; `user` is the name and, if it is set, the password. -/
structure URL where
  scheme : Bytes
  opaq : Bytes
  user : Option (Bytes × Option Bytes)
  host : Bytes
  path : Bytes
  rawPath : Bytes
  omitHost : Bool
  forceQuery : Bool
  rawQuery : Bytes
  fragment : Bytes
  rawFragment : Bytes
deriving DecidableEq

/-- `getScheme`, from position `i`: the length of the scheme, if there is one; an error if it is empty. -/
def schemeLen : Bytes → Nat → Except Unit (Option Nat)
  | [], _ => .ok none
  | c :: s, i =>
    if (c!"a" ≤ c ∧ c ≤ c!"z") ∨ (c!"A" ≤ c ∧ c ≤ c!"Z") then schemeLen s (i + 1)
    else if (c!"0" ≤ c ∧ c ≤ c!"9") ∨ c ∈ b!"+-." then if i = 0 then .ok none else schemeLen s (i + 1)
    else if c = c!":" then if i = 0 then .error () else .ok (some i)
    else .ok none

/-- `strings.ToLower` of a scheme. -/
def lower (s : Bytes) : Bytes := s.map fun c => if c!"A" ≤ c ∧ c ≤ c!"Z" then c + 32 else c

/-- `strings.Cut` at a byte. -/
def cut (s : Bytes) (c : Byte) : Bytes × Option Bytes :=
  match indexByte s c with
  | none => (s, none)
  | some i => (s.take i, some (s.drop (i + 1)))

/-- `validOptionalPort`. -/
def validOptionalPort (s : Bytes) : Bool :=
  match s with
  | [] => true
  | c :: r => c == c!":" && r.all fun d => c!"0" ≤ d && d ≤ c!"9"

/-- `parseHost`. -/
def parseHost (host : Bytes) : Option Bytes :=
  if host.head? = some c!"[" then
    match lastIndexByte host c!"]" with
    | none => none
    | some i =>
      if validOptionalPort (host.drop (i + 1)) then
        match index (host.take i) b!"%25" with
        | some z =>
          match unescape .host (host.take z), unescape .zone ((host.take i).drop z), unescape .host (host.drop i) with
          | some a, some b, some c => some (a ++ b ++ c)
          | _, _, _ => none
        | none => unescape .host host
      else none
  else
    match lastIndexByte host c!":" with
    | some i => if validOptionalPort (host.drop i) then unescape .host host else none
    | none => unescape .host host

/-- `validUserinfo`. -/
def validUserinfo (s : Bytes) : Bool := s.all fun c => isAlnum c || c ∈ b!"-._:~!$&'()*+,;=%@"

/-- `parseAuthority`. -/
def parseAuthority (a : Bytes) : Option (Option (Bytes × Option Bytes) × Bytes) :=
  match lastIndexByte a c!"@" with
  | none => (parseHost a).map (none, ·)
  | some i =>
    match parseHost (a.drop (i + 1)) with
    | none => none
    | some h =>
      if validUserinfo (a.take i) then
        match cut (a.take i) c!":" with
        | (n, none) => (unescape .userPassword n).map fun n => (some (n, none), h)
        | (n, some p) =>
          match unescape .userPassword n, unescape .userPassword p with
          | some n, some p => some (some (n, some p), h)
          | _, _ => none
      else none

/-- `setPath`. -/
def URL.setPath (u : URL) (p : Bytes) : Option URL :=
  match unescape .path p with
  | none => none
  | some path => some { u with path := path, rawPath := if p = escape .path path then [] else p }

/-- `setFragment`. -/
def URL.setFragment (u : URL) (f : Bytes) : Option URL :=
  match unescape .fragment f with
  | none => none
  | some fr => some { u with fragment := fr, rawFragment := if f = escape .fragment fr then [] else f }

/-- A new `URL`. -/
def URL.empty : URL := ⟨[], [], none, [], [], [], false, false, [], [], []⟩

/-- The last part of `parse`: what follows the scheme and comes before the query. -/
def parseRest (u : URL) (rest : Bytes) : Option URL :=
  if rest.head? ≠ some c!"/" ∧ u.scheme ≠ [] then some { u with opaq := rest }
  else if rest.head? ≠ some c!"/" ∧ c!":" ∈ (cut rest c!"/").1 then none
  else if hasPrefix rest b!"//" = true ∧ (u.scheme ≠ [] ∨ hasPrefix rest b!"///" = false) then
    let a := rest.drop 2
    let (auth, path) := match indexByte a c!"/" with
      | some i => (a.take i, a.drop i)
      | none => (a, [])
    match parseAuthority auth with
    | none => none
    | some (user, host) => { u with user := user, host := host }.setPath path
  else { u with omitHost := u.scheme ≠ [] ∧ rest.head? = some c!"/" }.setPath rest

/-- `parse`: everything but the fragment. -/
def parseMain (s : Bytes) : Option URL :=
  if s.any fun c => c < 32 || c == 127 then none
  else if s = b!"*" then some { URL.empty with path := b!"*" }
  else
    match schemeLen s 0 with
    | .error _ => none
    | .ok n =>
      let (scheme, rest) := match n with
        | some n => (lower (s.take n), s.drop (n + 1))
        | none => ([], s)
      let u := { URL.empty with scheme := scheme }
      if rest.getLast? = some c!"?" ∧ rest.count c!"?" = 1 then parseRest { u with forceQuery := true } rest.dropLast
      else
        match cut rest c!"?" with
        | (rest, q) => parseRest { u with rawQuery := q.getD [] } rest

/-- `url.Parse`. -/
def parse (s : Bytes) : Option URL :=
  match cut s c!"#" with
  | (s, f) =>
    match parseMain s with
    | none => none
    | some u => if f.getD [] = [] then some u else u.setFragment (f.getD [])

/-- `EscapedPath`. -/
def URL.escapedPath (u : URL) : Bytes :=
  if u.rawPath ≠ [] ∧ validEncoded .path u.rawPath = true ∧ unescape .path u.rawPath = some u.path then u.rawPath
  else if u.path = b!"*" then b!"*"
  else escape .path u.path

/-- `EscapedFragment`. -/
def URL.escapedFragment (u : URL) : Bytes :=
  if u.rawFragment ≠ [] ∧ validEncoded .fragment u.rawFragment = true ∧ unescape .fragment u.rawFragment = some u.fragment then u.rawFragment
  else escape .fragment u.fragment

/-- `Userinfo.String`. -/
def userText (x : Bytes × Option Bytes) : Bytes :=
  escape .userPassword x.1 ++ match x.2 with
    | some p => b!":" ++ escape .userPassword p
    | none => []

/-- `URL.String` before the query, for a URL that is not opaque. -/
def URL.mainText (u : URL) : Bytes :=
  let start := (if u.scheme ≠ [] then u.scheme ++ b!":" else []) ++
    (if (u.scheme ≠ [] ∨ u.host ≠ [] ∨ u.user ≠ none) ∧ ¬ (u.omitHost = true ∧ u.host = [] ∧ u.user = none) then
      (if u.host ≠ [] ∨ u.path ≠ [] ∨ u.user ≠ none then b!"//" else []) ++
      (match u.user with
        | some x => userText x ++ b!"@"
        | none => []) ++
      escape .host u.host
    else [])
  let path := u.escapedPath
  let slash := if path ≠ [] ∧ path.head? ≠ some c!"/" ∧ u.host ≠ [] then b!"/" else []
  let dot := if start ++ slash = [] ∧ c!":" ∈ (cut path c!"/").1 then b!"./" else []
  start ++ slash ++ dot ++ path

/-- `URL.String`. -/
def URL.string (u : URL) : Bytes :=
  (if u.opaq ≠ [] then (if u.scheme ≠ [] then u.scheme ++ b!":" else []) ++ u.opaq else u.mainText) ++
  (if u.forceQuery = true ∨ u.rawQuery ≠ [] then b!"?" ++ u.rawQuery else []) ++
  (if u.fragment ≠ [] then b!"#" ++ u.escapedFragment else [])

end Verif.Go.Url
