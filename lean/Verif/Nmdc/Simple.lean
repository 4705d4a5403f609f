import Verif.Nmdc.Types
import Verif.Nmdc.Utils

/-!
# Small messages (`msg_errors.go`, `msg_hub.go`, `msg_other.go`, `msg_lock.go`, `msg_files.go`, `msg_ping.go`,
`msg_user_list.go`, `extensions.go`)

Messages that embed `Name`, `String` or `NoArgs` use the codecs of `Types.lean` directly.
-/

namespace Verif.Nmdc

open Verif.Go

/-! ## Failed, Error -/

/-- `Failed`/`Error`, `nmdc/msg_errors.go:13-69`: `none` is a nil error, `some t` an error with that text. -/
def ErrMsg.marshal (enc : Codec) (e : Option Bytes) : Res Bytes :=
  match e with
  | none => .ok []
  | some t => Str.marshal enc t

/-- An empty text leaves the previous error in place. -/
def ErrMsg.unmarshal [HtmlEntities] (dec : Codec) (m0 : Option Bytes) (data : Bytes) : Res (Option Bytes) := do
  let s ← Str.unmarshal dec data
  pure (if s ≠ [] then some s else m0)

/-! ## Raw values: Version, ForceMove, Key (`msg_hub.go:49-57`, `msg_other.go:23-31`, `msg_lock.go:144-152`) -/

def RawValue.marshal (s : Bytes) : Res Bytes := .ok s
def RawValue.unmarshal (data : Bytes) : Res Bytes := .ok data

/-! ## FailOver -/

/-- `nmdc/msg_hub.go:88-96`. -/
def FailOver.marshal (hosts : List Bytes) : Res Bytes := .ok (join hosts c!",")

/-- `nmdc/msg_hub.go:98-105`. -/
def FailOver.unmarshal (data : Bytes) : Res (List Bytes) := .ok (split data c!",")

/-! ## Supports -/

/-- `nmdc/extensions.go:45-58`: `Grow(-1)` panics for an empty list. -/
def Supports.marshal (ext : List Bytes) : Res Bytes :=
  if ext = [] then .panic else .ok (join ext c!" ")

/-- `nmdc/extensions.go:60-71`. -/
def Supports.unmarshal (data : Bytes) : Res (List Bytes) :=
  .ok ((split (trimRight (trimLeft data (· = c!" ")) (· = c!" ")) c!" ").filter (· ≠ []))

/-! ## Lock -/

/-- `nmdc/msg_lock.go:27-32`. -/
structure Lock where
  noExt : Bool := false
  lock : Bytes := []
  pk : Bytes := []
  ref : Bytes := []
deriving DecidableEq, Repr

/-- `nmdc/extensions.go:13`. -/
def extLockPref : Bytes := b!"EXTENDEDPROTOCOL"

/-- `nmdc/msg_lock.go:38-55`. -/
def Lock.marshal (m : Lock) : Res Bytes :=
  .ok ((if !m.noExt then extLockPref else []) ++ m.lock ++
    (if m.pk ≠ [] then b!" Pk=" ++ m.pk else []) ++
    (if m.ref ≠ [] then (if m.pk = [] then b!" " else []) ++ b!"Ref=" ++ m.ref else []))

/-- What follows the extension prefix, `nmdc/msg_lock.go:64-84`. -/
def Lock.body (noExt : Bool) (data : Bytes) : Res Lock :=
  match indexByte data c!" " with
  | none => pure { noExt := noExt, lock := data }
  | some i => do
    let lock := data.take i
    let data ← sliceFrom data (i + 1)
    let data ← if hasPrefix data b!"Pk=" then sliceFrom data 3 else pure data
    match index data b!"Ref=" with
    | some i => do
      let r ← sliceFrom data (i + 4)
      pure { noExt := noExt, lock := lock, pk := data.take i, ref := r }
    | none => pure { noExt := noExt, lock := lock, pk := data }

/-- `nmdc/msg_lock.go:57-84`; the previous value is dropped. -/
def Lock.unmarshal (data : Bytes) : Res Lock :=
  if hasPrefix data extLockPref then do
    let data ← sliceFrom data 16
    Lock.body false data
  else
    Lock.body true data

/-- `nmdc/msg_lock.go:86-99`. -/
def Lock.lockString (m : Lock) (full : Bool) : Res Bytes :=
  if !full then .ok (if m.noExt then m.lock else extLockPref ++ m.lock) else m.marshal

/-- Swap the two halves of a byte, `nmdc/msg_lock.go:119`. -/
def swapNibbles (b : Byte) : Byte := ((b <<< (4 : Byte)) &&& (0xF0 : Byte)) ||| ((b >>> (4 : Byte)) &&& (0x0F : Byte))

/-- `lock[i] ^ lock[i-1]` for `i ≥ 1`, `nmdc/msg_lock.go:114-116`. -/
def xorPairs : Bytes → Bytes
  | a :: b :: s => (b ^^^ a) :: xorPairs (b :: s)
  | _ => []

/-- `key` before escaping, `nmdc/msg_lock.go:108-120`. -/
def rawKey (magic : Byte) (lock : Bytes) : Res Bytes := do
  let n := lock.length
  let l0 ← at' lock 0
  if n < 2 then .panic
  else do
    let a ← at' lock (n - 1)
    let b ← at' lock (n - 2)
    pure (((l0 ^^^ a ^^^ b ^^^ magic) :: xorPairs lock).map swapNibbles)

/-- `keyReplace`, `nmdc/msg_lock.go:10-17`. -/
def keyReplace (b : Byte) : Option Bytes :=
  if b = 0 then some b!"/%DCN000%/" else if b = 5 then some b!"/%DCN005%/" else if b = 36 then some b!"/%DCN036%/"
  else if b = 96 then some b!"/%DCN096%/" else if b = 124 then some b!"/%DCN124%/"
  else if b = 126 then some b!"/%DCN126%/" else none

/-- `CustomKey`, `nmdc/msg_lock.go:107-131`. -/
def Lock.customKey (m : Lock) (magic : Byte) (full : Bool) : Res Bytes := do
  let l ← m.lockString full
  let k ← rawKey magic l
  pure (escWith keyReplace k)

/-! ## File transfer -/

/-- `nmdc/msg_files.go:16-23`. -/
structure ADCGet where
  contentType : Bytes := []
  identifier : Bytes := []
  start : Nat := 0
  length : Int := 0
  compressed : Bool := false
  downloaded : Option Nat := none
deriving DecidableEq, Repr

/-- The optional `DB` field, `nmdc/msg_files.go:47-50`. -/
def ADCGet.downText : Option Nat → Bytes
  | some n => b!" DB" ++ utoa n
  | none => []

/-- `nmdc/msg_files.go:29-52`. -/
def ADCGet.marshal (enc : Codec) (m : ADCGet) : Res Bytes := do
  let a ← Str.marshal enc m.contentType
  let b ← Str.marshal enc m.identifier
  pure (a ++ b!" " ++ b ++ b!" " ++ utoa m.start ++ b!" " ++ itoa m.length ++
    (if m.compressed then b!" ZL1" else []) ++
    ADCGet.downText m.downloaded)

/-- Conversion of a `uint64` to `int64`. -/
def toI64 (n : Nat) : Int := if n < 2 ^ 63 then (n : Int) else (n : Int) - 2 ^ 64

/-- Any error becomes this one (`errors.New` in place of the cause). -/
def mapErr (r : Res α) (e : Err) : Res α :=
  match r with
  | .err _ => .err e
  | x => x

/-- The flags, `nmdc/msg_files.go:101-122`, over the space separated fields
(an empty field is neither flag, so the loop condition `len(data) > 0` makes no difference). -/
def adcGetFlags : List Bytes → ADCGet → Res ADCGet
  | [], m => .ok m
  | f :: fs, m =>
    if f = b!"ZL1" then adcGetFlags fs { m with compressed := true }
    else if hasPrefix f b!"DB" then do
      let d ← sliceFrom f 2
      let n ← mapErr (parseUin64Trim d) (.other 40)
      adcGetFlags fs { m with downloaded := some n }
    else adcGetFlags fs m

/-- Field up to the next space and the rest; the separator must be there. -/
def cutSpace (data : Bytes) : Res (Bytes × Bytes) :=
  match indexByte data c!" " with
  | none => .err (.other 41)
  | some i => do
    let r ← sliceFrom data (i + 1)
    pure (data.take i, r)

/-- Field up to the next space and the rest, nothing if there is no separator. -/
def cutSpaceOpt (data : Bytes) : Res (Bytes × Bytes) :=
  match indexByte data c!" " with
  | none => .ok (data, [])
  | some i => do
    let r ← sliceFrom data (i + 1)
    pure (data.take i, r)

/-- `nmdc/msg_files.go:54-125`. Flags are only ever set. -/
def ADCGet.unmarshal [HtmlEntities] (dec : Codec) (m : ADCGet) (data : Bytes) : Res ADCGet := do
  let (f, data) ← cutSpace data
  let ct ← Str.unmarshal dec f
  let (f, data) ← cutSpace data
  let ident ← mapErr (Str.unmarshal dec f) (.other 42)
  let (f, data) ← cutSpace data
  let start ← mapErr (parseUin64Trim f) (.other 43)
  let (f, data) ← cutSpaceOpt data
  let len ← if f = b!"-1" then pure (-1 : Int)
    else do
      let n ← mapErr (parseUin64Trim f) (.other 44)
      pure (toI64 n)
  adcGetFlags (split data c!" ") { m with contentType := ct, identifier := ident, start := start, length := len }

/-- `nmdc/msg_files.go:127-133`. -/
structure ADCSnd where
  contentType : Bytes := []
  identifier : Bytes := []
  start : Nat := 0
  length : Nat := 0
  compressed : Bool := false
deriving DecidableEq, Repr

/-- `nmdc/msg_files.go:139-155`. -/
def ADCSnd.marshal (enc : Codec) (m : ADCSnd) : Res Bytes := do
  let a ← Str.marshal enc m.contentType
  let b ← Str.marshal enc m.identifier
  pure (a ++ b!" " ++ b ++ b!" " ++ utoa m.start ++ b!" " ++ utoa m.length ++ (if m.compressed then b!" ZL1" else []))

/-- `nmdc/msg_files.go:157-207`. -/
def ADCSnd.unmarshal [HtmlEntities] (dec : Codec) (m : ADCSnd) (data : Bytes) : Res ADCSnd := do
  let (f, data) ← cutSpace data
  let ct ← Str.unmarshal dec f
  let (f, data) ← cutSpace data
  let ident ← mapErr (Str.unmarshal dec f) (.other 42)
  let (f, data) ← cutSpace data
  let start ← mapErr (parseUin64Trim f) (.other 43)
  let (f, data) ← cutSpaceOpt data
  let len ← mapErr (parseUin64Trim f) (.other 44)
  if data.length > 0 then
    if data ≠ b!"ZL1" then .err (.other 45)
    else pure { contentType := ct, identifier := ident, start := start, length := len, compressed := true }
  else pure { m with contentType := ct, identifier := ident, start := start, length := len }

/-- `nmdc/msg_files.go:209-212`. -/
structure Direction where
  upload : Bool := false
  number : Nat := 0
deriving DecidableEq, Repr

/-- `nmdc/msg_files.go:218-227`; `int(m.Number)` is the signed reading of the 64 bits. -/
def Direction.marshal (m : Direction) : Res Bytes :=
  .ok ((if m.upload then b!"Upload" else b!"Download") ++ b!" " ++ itoa (toI64 m.number))

/-- `nmdc/msg_files.go:229-253`. -/
def Direction.unmarshal (data : Bytes) : Res Direction := do
  let (d, data) ← cutSpace data
  let up ← if d = b!"Download" then pure false else if d = b!"Upload" then pure true else .err (.other 46)
  let n ← mapErr (parseUin64Trim data) (.other 47)
  if n < 1 ∨ n > 32767 then .err (.other 48) else pure { upload := up, number := n }

/-! ## HubINFO -/

/-- `types.Software`, `types/software.go`. -/
structure Software where
  name : Bytes := []
  version : Bytes := []
deriving DecidableEq, Repr

/-- `nmdc/msg_ping.go:45-57`. -/
structure HubINFO where
  name : Bytes := []
  host : Bytes := []
  desc : Bytes := []
  i1 : Int := 0
  i2 : Int := 0
  i3 : Int := 0
  i4 : Int := 0
  soft : Software := {}
  owner : Bytes := []
  state : Bytes := []
  encoding : Bytes := []
deriving DecidableEq, Repr

/-- `nmdc/msg_ping.go:87-94`. -/
def Software.text (s : Software) : Bytes := if s.version = [] then s.name else s.name ++ b!" " ++ s.version

/-- `nmdc/msg_ping.go:63-108`. -/
def HubINFO.marshal (enc : Codec) (m : HubINFO) : Res Bytes := do
  let name ← Str.marshal enc m.name
  let desc ← Str.marshal enc m.desc
  let owner ← Str.marshal enc m.owner
  let state ← Str.marshal enc m.state
  pure (join [name, m.host, desc, itoa m.i1, itoa m.i2, itoa m.i3, itoa m.i4, m.soft.text, owner, state, m.encoding] c!"$")

/-- Software from text, split at the last space, `nmdc/msg_ping.go:153-158`. -/
def Software.parse (m : Software) (soft : Bytes) : Software :=
  match lastIndexByte soft c!" " with
  | some i => { name := soft.take i, version := soft.drop (i + 1) }
  | none => { m with name := soft }

/-- One field, `nmdc/msg_ping.go:113-177`; `n` is the number of fields. -/
def HubINFO.field [HtmlEntities] (dec : Codec) (n i : Nat) (m : HubINFO) (f : Bytes) : Res HubINFO :=
  match i with
  | 0 => do let s ← Str.unmarshal dec f; pure { m with name := s }
  | 1 => .ok { m with host := f }
  | 2 => do let s ← Str.unmarshal dec f; pure { m with desc := s }
  | 3 => do let k ← mapErr (atoiTrim f) (.other 50); pure { m with i1 := k }
  | 4 => do let k ← mapErr (atoiTrim f) (.other 50); pure { m with i2 := k }
  | 5 => do let k ← mapErr (atoiTrim f) (.other 50); pure { m with i3 := k }
  | 6 => do let k ← mapErr (atoiTrim f) (.other 50); pure { m with i4 := k }
  | 7 => .ok { m with soft := m.soft.parse f }
  | 8 => do let s ← Str.unmarshal dec f; pure { m with owner := s }
  | 9 => do let s ← Str.unmarshal dec f; pure { m with state := s }
  | 10 => .ok (if n < 12 then { m with encoding := f } else m)
  | _ => .ok m

/-- The loop over the fields. -/
def HubINFO.fields [HtmlEntities] (dec : Codec) (n : Nat) : Nat → HubINFO → List Bytes → Res HubINFO
  | _, m, [] => .ok m
  | i, m, f :: fs => do
    let m ← HubINFO.field dec n i m f
    HubINFO.fields dec n (i + 1) m fs

/-- `nmdc/msg_ping.go:110-180`. -/
def HubINFO.unmarshal [HtmlEntities] (dec : Codec) (m : HubINFO) (data : Bytes) : Res HubINFO :=
  let fs := splitMax data c!"$" 13
  HubINFO.fields dec fs.length 0 m fs

/-! ## Lists -/

/-- The two-byte separator `$$` of name lists. -/
def dd : Bytes := b!"$$"

/-- `bytes.Split(data, []byte("$$"))`: occurrences are taken from the left. -/
def splitDD : Bytes → List Bytes
  | [] => [[]]
  | [b] => [[b]]
  | a :: b :: s =>
    if a = c!"$" ∧ b = c!"$" then [] :: splitDD s
    else
      match splitDD (b :: s) with
      | [] => [[a]]
      | p :: ps => (a :: p) :: ps

/-- `bytes.TrimSuffix`. -/
def trimSuffix (s suf : Bytes) : Bytes := if suf.isSuffixOf s then s.take (s.length - suf.length) else s

/-- `Names.MarshalNMDC`, `nmdc/msg_user_list.go:50-62`. -/
def Names.marshalAll (enc : Codec) : List Bytes → Res Bytes
  | [] => .ok []
  | n :: ns => do
    let w ← Name.marshal enc n
    let ws ← Names.marshalAll enc ns
    pure (w ++ dd ++ ws)

def Names.marshal (enc : Codec) (ns : List Bytes) : Res Bytes :=
  if ns = [] then .ok dd else Names.marshalAll enc ns

def Names.unmarshalAll [HtmlEntities] (dec : Codec) : List Bytes → Res (List Bytes)
  | [] => .ok []
  | b :: bs => do
    let n ← Name.unmarshal dec b
    let ns ← Names.unmarshalAll dec bs
    pure (n :: ns)

/-- `Names.UnmarshalNMDC`, `nmdc/msg_user_list.go:64-83`. -/
def Names.unmarshal [HtmlEntities] (dec : Codec) (data : Bytes) : Res (List Bytes) :=
  let data := trimSuffix data dd
  if data.length = 0 then .ok [] else Names.unmarshalAll dec (splitDD data)

/-- `nmdc/msg_user_list.go:85-88`. -/
structure UserAddress where
  name : Bytes := []
  ip : Bytes := []
deriving DecidableEq, Repr

/-- `nmdc/msg_user_list.go:98-108`. -/
def UserIP.marshal (enc : Codec) : List UserAddress → Res Bytes
  | [] => .ok []
  | a :: l => do
    let n ← Name.marshal enc a.name
    let ws ← UserIP.marshal enc l
    pure (n ++ b!" " ++ a.ip ++ dd ++ ws)

/-- One entry, `nmdc/msg_user_list.go:116-127`. -/
def UserIP.entry [HtmlEntities] (dec : Codec) (s : Bytes) : Res UserAddress := do
  let (s, ip) ← match lastIndexByte s c!" " with
    | some i => do
      let ip ← sliceFrom s (i + 1)
      pure (s.take i, ip)
    | none => pure (s, [])
  let n ← Name.unmarshal dec s
  pure { name := n, ip := ip }

def UserIP.entries [HtmlEntities] (dec : Codec) : List Bytes → Res (List UserAddress)
  | [] => .ok []
  | b :: bs => do
    let n ← UserIP.entry dec b
    let ns ← UserIP.entries dec bs
    pure (n :: ns)

/-- `nmdc/msg_user_list.go:110-130`. -/
def UserIP.unmarshal [HtmlEntities] (dec : Codec) (data : Bytes) : Res (List UserAddress) :=
  UserIP.entries dec (splitDD (trimSuffix (trimSuffix data b!"\r") dd))

end Verif.Nmdc
