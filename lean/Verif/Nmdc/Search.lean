import Verif.Nmdc.Types
import Verif.Nmdc.Utils
import Verif.Tiger.Hash

/-!
# Searches and search results (`nmdc/msg_search.go`)
-/

namespace Verif.Nmdc

open Verif.Go Verif.Tiger

/-- `bytes.Replace` of single bytes. -/
def replaceByte (s : Bytes) (a b : Byte) : Bytes := s.map (fun c => if c = a then b else c)

/-- `nmdc/msg_search.go:38-49`; `size` and `dataType` are 64-bit unsigned. -/
structure Search where
  address : Bytes := []
  user : Bytes := []
  sizeRestricted : Bool := false
  isMaxSize : Bool := false
  size : Nat := 0
  dataType : Nat := 0
  pattern : Bytes := []
  tth : Option Hash := none
deriving DecidableEq, Repr

/-- Who searches, `nmdc/msg_search.go:56-63`. -/
def Search.who (enc : Codec) (m : Search) : Res Bytes :=
  if m.address ≠ [] then .ok m.address
  else do
    let n ← Name.marshal enc m.user
    .ok (b!"Hub:" ++ n)

/-- The restriction flags, `nmdc/msg_search.go:67-76`. -/
def Search.flags (m : Search) : Bytes :=
  if m.sizeRestricted then (if m.isMaxSize then b!"T?T" else b!"T?F") else b!"F?T"

/-- What is searched for, `nmdc/msg_search.go:88-104`. -/
def Search.what (enc : Codec) (m : Search) : Res Bytes :=
  if m.dataType = 9 then
    match m.tth with
    | none => .err (.other 62)
    | some h => .ok (b!"TTH:" ++ h.base32)
  else do
    let p ← Str.marshal enc m.pattern
    .ok (replaceByte p c!" " c!"$")

/-- `nmdc/msg_search.go:55-106`. -/
def Search.marshal (enc : Codec) (m : Search) : Res Bytes := do
  let who ← m.who enc
  let what ← m.what enc
  pure (who ++ b!" " ++ m.flags ++ b!"?" ++ utoa m.size ++ b!"?" ++
    utoa (if m.dataType = 0 then 1 else m.dataType) ++ b!"?" ++ what)

/-- `unmarshalBoolFlag`, `nmdc/msg_search.go:205-216`. -/
def boolFlag (d : Bytes) : Res Bool :=
  if d = b!"T" then .ok true else if d = b!"F" then .ok false else .err (.other 63)

/-- The size field, `nmdc/msg_search.go:154-170`: whether it resets the restriction, and the size. -/
def Search.sizeField (old : Nat) (field : Bytes) : Res (Bool × Nat) :=
  match field with
  | [] => .ok (false, old)
  | c :: t =>
    if c = c!"-" then do
      let _ ← parseUin64Trim t
      .ok (true, 0)
    else do
      let n ← parseUin64Trim field
      .ok (false, n)

/-- The hash or the pattern, `nmdc/msg_search.go:179-201`: new pattern and hash. -/
def Search.target [HtmlEntities] (dec : Codec) (m : Search) (typ : Nat) (field : Bytes) : Res (Bytes × Option Hash) :=
  if typ = 9 then
    if hasPrefix field b!"TTH:" then do
      let hash ← sliceFrom field 4
      let hash := if hash.getLast? = some c!"$" then hash.dropLast else hash
      let h ← Hash.unmarshalBase32 hash
      .ok (m.pattern, some h)
    else .err (.other 64)
  else do
    let s ← Str.unmarshal dec field
    .ok (replaceByte s c!"$" c!" ", m.tth)

/-- `unmarshalString`, `nmdc/msg_search.go:129-203`. -/
def Search.unmarshalString [HtmlEntities] (dec : Codec) (m : Search) (data : Bytes) : Res Search :=
  match splitMax data c!"?" 5 with
  | [f0, f1, f2, f3, f4] => do
    let restricted ← boolFlag f0
    let isMax ← boolFlag f1
    let (reset, size) ← Search.sizeField m.size f2
    let typ ← parseUin64Trim f3
    let (pattern, tth) ← Search.target dec m typ f4
    pure { m with sizeRestricted := restricted && !reset, isMaxSize := isMax, size := size, dataType := typ,
                  pattern := pattern, tth := tth }
  | _ => .err (.other 65)

/-- `nmdc/msg_search.go:108-127`. -/
def Search.unmarshal [HtmlEntities] (dec : Codec) (m : Search) (data : Bytes) : Res Search :=
  match indexByte data c!" " with
  | none => .err (.other 66)
  | some i => do
    let field0 := data.take i
    let field1 ← sliceFrom data (i + 1)
    if hasPrefix field0 b!"Hub:" then do
      let v ← sliceFrom field0 4
      let n ← Name.unmarshal dec v
      Search.unmarshalString dec { m with user := n } field1
    else Search.unmarshalString dec { m with address := field0 } field1

/-! ## Results -/

/-- `nmdc/msg_search.go:218-229`; `size` is 64-bit unsigned, slots are Go `int`. -/
structure SR where
  src : Bytes := []
  path : List Bytes := []
  isDir : Bool := false
  size : Nat := 0
  freeSlots : Int := 0
  totalSlots : Int := 0
  hubName : Bytes := []
  tth : Option Hash := none
  hubAddress : Bytes := []
  dst : Bytes := []
deriving DecidableEq, Repr

/-- Encode a list of texts, in order; the first error ends it. -/
def strAll (enc : Codec) : List Bytes → Res (List Bytes)
  | [] => .ok []
  | p :: ps => do
    let w ← Str.marshal enc p
    let ws ← strAll enc ps
    .ok (w :: ws)

/-- Hash or hub name, `nmdc/msg_search.go:266-277`. -/
def SR.source (enc : Codec) (m : SR) : Res Bytes :=
  match m.tth with
  | some h => .ok (b!"TTH:" ++ h.base32)
  | none => Str.marshal enc m.hubName

/-- The optional recipient, `nmdc/msg_search.go:281-288`. -/
def SR.target (enc : Codec) (m : SR) : Res Bytes :=
  if m.dst = [] then .ok []
  else do
    let n ← Name.marshal enc m.dst
    .ok ((5 : Byte) :: n)

/-- Free and total slots, `nmdc/msg_search.go:259-263`. -/
def SR.slots (m : SR) : Bytes := itoa m.freeSlots ++ b!"/" ++ itoa m.totalSlots

/-- `nmdc/msg_search.go:237-289`. -/
def SR.marshal (enc : Codec) (m : SR) : Res Bytes := do
  let src ← Name.marshal enc m.src
  if m.path = [] then .err (.other 67)
  else do
    let ws ← strAll enc m.path
    let name ← m.source enc
    let to ← m.target enc
    pure (src ++ b!" " ++ join ws c!"\\" ++ (if m.isDir then [] else (5 : Byte) :: utoa m.size) ++ b!" " ++ m.slots ++ [5] ++
      name ++ b!" (" ++ m.hubAddress ++ b!")" ++ to)

/-- A digit or `/`. -/
def slotByte (b : Byte) : Bool := b = c!"/" || (c!"0" ≤ b && b ≤ c!"9")

/-- The backward scan, `nmdc/msg_search.go:316-327` and the condition of line 332: the path and slots of a directory
result, if the trailing run of digits and `/` holds a `/` and does not reach the beginning. -/
def SR.dirSplit (p : Bytes) : Option (Bytes × Bytes) :=
  let run := (p.reverse.takeWhile slotByte).reverse
  if c!"/" ∈ run ∧ run.length < p.length then some (p.take (p.length - run.length - 1), run) else none

/-- Size and slots of a file result, `nmdc/msg_search.go:339-357`: size, slots and rest. -/
def SR.fileSplit (data : Bytes) : Res (Nat × Bytes × Bytes) :=
  match indexByte data 5 with
  | none => .err (.other 70)
  | some i => do
    let ss := data.take i
    let data ← sliceFrom data (i + 1)
    match indexByte ss c!" " with
    | none => .err (.other 71)
    | some i => do
      let n ← parseUin64Trim (ss.take i)
      let slots ← sliceFrom ss (i + 1)
      .ok (n, slots, data)

/-- `nmdc/msg_search.go:364-375`. -/
def SR.parseSlots (slots : Bytes) : Res (Int × Int) :=
  match indexByte slots c!"/" with
  | none => .err (.other 72)
  | some i => do
    let f ← atoiTrim (slots.take i)
    let r ← sliceFrom slots (i + 1)
    let t ← atoiTrim r
    .ok (f, t)

/-- Hash or hub name, `nmdc/msg_search.go:377-403`: new hub name, new hash, rest. -/
def SR.parseSource [HtmlEntities] (dec : Codec) (m : SR) (data : Bytes) : Res (Bytes × Option Hash × Bytes) :=
  if hasPrefix data b!"TTH:" then do
    let data ← sliceFrom data 4
    if 40 ≥ data.length then .err (.other 73)
    else do
      let a ← at' data 39
      let b ← at' data 40
      if a ≠ c!" " ∨ b ≠ c!"(" then .err (.other 73)
      else do
        let r ← sliceFrom data 41
        let h ← Hash.unmarshalBase32 (data.take 39)
        .ok (m.hubName, some h, r)
  else
    match index data b!" (" with
    | none => .err (.other 74)
    | some i => do
      let r ← sliceFrom data (i + 2)
      let s ← Str.unmarshal dec (data.take i)
      .ok (s, m.tth, r)

/-- Hub address and recipient, `nmdc/msg_search.go:404-421`. -/
def SR.parseTarget [HtmlEntities] (dec : Codec) (m : SR) (data : Bytes) : Res (Bytes × Bytes) :=
  match indexByte data c!")" with
  | none => .err (.other 75)
  | some i => do
    let addr := data.take i
    let data ← sliceFrom data (i + 1)
    match data with
    | [] => .ok (addr, m.dst)
    | c :: t =>
      if c ≠ 5 ∨ t = [] then .err (.other 76)
      else do
        let n ← Name.unmarshal dec t
        .ok (addr, n)

/-- From the path on, `nmdc/msg_search.go:358-421`. The path is checked as text but its raw bytes are used
(`strings.Split(string(path), …)`, line 362). -/
def SR.tail [HtmlEntities] (dec : Codec) (m : SR) (path slots data : Bytes) : Res SR := do
  let _ ← Str.unmarshal dec path
  let (f, t) ← SR.parseSlots slots
  let (hub, tth, data) ← SR.parseSource dec m data
  let (addr, dst) ← SR.parseTarget dec m data
  pure { m with path := split path c!"\\", freeSlots := f, totalSlots := t, hubName := hub, tth := tth, hubAddress := addr,
                dst := dst }

/-- `nmdc/msg_search.go:291-422`. -/
def SR.unmarshal [HtmlEntities] (dec : Codec) (m : SR) (data : Bytes) : Res SR :=
  match indexByte data c!" " with
  | none => .err (.other 68)
  | some i => do
    let n ← Name.unmarshal dec (data.take i)
    let data ← sliceFrom data (i + 1)
    match indexByte data 5 with
    | none => .err (.other 69)
    | some i => do
      let maybe := data.take i
      let data ← sliceFrom data (i + 1)
      match SR.dirSplit maybe with
      | some (path, slots) => SR.tail dec { m with src := n, isDir := true, size := 0 } path slots data
      | none => do
        let (size, slots, data) ← SR.fileSplit data
        SR.tail dec { m with src := n, isDir := false, size := size } maybe slots data

/-! ## Short searches -/

/-- `nmdc/msg_search.go:425-428`. -/
structure SA where
  tth : Hash := .zero
  address : Bytes := []
deriving DecidableEq, Repr

/-- `nmdc/msg_search.go:434-443`. -/
def SA.marshal (m : SA) : Res Bytes := .ok (m.tth.base32 ++ b!" " ++ m.address)

/-- `nmdc/msg_search.go:446-452` and `481-487`: hash and rest. -/
def shortSearch (data : Bytes) : Res (Hash × Bytes) :=
  if 39 ≥ data.length then .err (.other 77)
  else do
    let c ← at' data 39
    if c ≠ c!" " then .err (.other 77)
    else do
      let h ← Hash.unmarshalBase32 (data.take 39)
      let r ← sliceFrom data 40
      .ok (h, r)

/-- `nmdc/msg_search.go:445-455`. -/
def SA.unmarshal (data : Bytes) : Res SA := do
  let (h, r) ← shortSearch data
  pure ⟨h, r⟩

/-- `nmdc/msg_search.go:458-461`. -/
structure SP where
  tth : Hash := .zero
  user : Bytes := []
deriving DecidableEq, Repr

/-- `nmdc/msg_search.go:467-478`. -/
def SP.marshal (enc : Codec) (m : SP) : Res Bytes := do
  let n ← Name.marshal enc m.user
  pure (m.tth.base32 ++ b!" " ++ n)

/-- `nmdc/msg_search.go:480-494`. -/
def SP.unmarshal [HtmlEntities] (dec : Codec) (data : Bytes) : Res SP := do
  let (h, r) ← shortSearch data
  let n ← Name.unmarshal dec r
  pure ⟨h, n⟩

end Verif.Nmdc
