import Verif.Nmdc.Message
import Verif.Tiger.HashVar

/-!
# The receiver of `UnmarshalNMDC` (`nmdc/msg_*.go`)

`UnmarshalNMDC` is a method of a pointer: it assigns field by field, and what it has assigned stays when it fails.  The decoders of
the other files give the value of a call that succeeds; here every decoder is written a second time as a sequence of assignments
and of steps that may fail, in the order of the code.
-/

namespace Verif.Nmdc

open Verif.Go Verif.Tiger

/-- A part of a method with a pointer receiver: how it ends, and what it makes of the value behind the pointer. -/
def Call (σ α : Type) : Type := σ → Res α × σ

namespace Call

variable {σ α β : Type}

/-- Go on if there was no error. -/
protected def bind (x : Call σ α) (f : α → Call σ β) : Call σ β := fun s =>
  match (x s).1 with
  | .ok a => f a (x s).2
  | .err e => (.err e, (x s).2)
  | .panic => (.panic, (x s).2)

instance : Monad (Call σ) where
  pure a := fun s => (.ok a, s)
  bind := Call.bind

/-- A step that does not touch the receiver. -/
def run (r : Res α) : Call σ α := fun s => (r, s)

/-- An assignment. -/
def set (f : σ → σ) : Call σ Unit := fun s => (.ok (), f s)

/-- `m.X, err = f(…)` followed by `if err != nil { return … }`: the field is assigned in either case; `v` is what `f` returns beside
an error. -/
def assign (f : α → σ → σ) (r : Res α) (v : α) : Call σ Unit := fun s =>
  match r with
  | .ok a => (.ok (), f a s)
  | .err e => (.err e, f v s)
  | .panic => (.panic, s)

/-- The value of a call that succeeds. -/
def value (c : Call σ Unit) (s : σ) : Res σ :=
  match (c s).1 with
  | .ok _ => .ok (c s).2
  | .err e => .err e
  | .panic => .panic

end Call

open Call

/-- What `atoiTrim` returns beside an error: 0, but `strconv.Atoi` (`nmdc/utils.go:81`) returns the nearest number of 64 bits when the
number is out of range. -/
def atoiBeside (s : Bytes) : Int :=
  if atoiTrim s = .err errRange then (if (trimSpace s).head? = some c!"-" then -(2 ^ 63) else 2 ^ 63 - 1) else 0

/-- `ChatMessage.UnmarshalNMDC`, `nmdc/msg_chat.go:51-111`. -/
def ChatMessage.call [HtmlEntities] (dec : Codec) (data : Bytes) : Call ChatMessage Unit := do
  let rest ← match data with
    | c :: data' =>
      if c = c!"<" then do
        let p ← run (if data' = [] then pure (0, 0) else chatScan data' 0 0)
        let name ← run (sliceTo data' p.1)
        let rest ← run (sliceFrom data' (p.1 + p.2))
        let _ ← run (if name.length > maxName then .err .protocolViolation else .ok ())
        let n ← run (Name.unmarshal dec name)
        set fun m => { m with name := n }
        pure rest
      else pure data
    | [] => pure data
  let t ← run (Str.unmarshal dec rest)
  set fun m => { m with text := t }

/-- The position of a separator that must be there. -/
def must (i : Option Nat) (e : Err) : Res Nat :=
  match i with
  | some i => .ok i
  | none => .err e

/-- `PrivateMessage.UnmarshalNMDC`, `nmdc/msg_chat.go:145-183`. -/
def PrivateMessage.call [HtmlEntities] (dec : Codec) (data : Bytes) : Call PrivateMessage Unit := do
  let i ← run (must (index data b!" From: ") (.other 20))
  let n ← run (Name.unmarshal dec (data.take i))
  set fun m => { m with to := n }
  let data ← run (sliceFrom data (i + 7))
  let i ← run (must (index data b!" $<") (.other 20))
  let n ← run (Name.unmarshal dec (data.take i))
  set fun m => { m with frm := n }
  let data ← run (sliceFrom data (i + 3))
  let i ← run (must (index data b!"> ") (.other 20))
  let n ← run (Name.unmarshal dec (data.take i))
  set fun m => { m with name := n }
  let text ← run (sliceFrom data (i + 2))
  let t ← run (Str.unmarshal dec text)
  set fun m => { m with text := t }

/-- `MCTo.UnmarshalNMDC`, `nmdc/msg_chat.go:211-237`. -/
def MCTo.call [HtmlEntities] (dec : Codec) (data : Bytes) : Call MCTo Unit := do
  let i ← run (must (index data b!" $") (.other 21))
  let n ← run (Name.unmarshal dec (data.take i))
  set fun m => { m with to := n }
  let data ← run (sliceFrom data (i + 2))
  let i ← run (must (indexByte data c!" ") (.other 21))
  let n ← run (Name.unmarshal dec (data.take i))
  set fun m => { m with frm := n }
  let text ← run (sliceFrom data (i + 1))
  let t ← run (Str.unmarshal dec text)
  set fun m => { m with text := t }

/-- The loop over the path, `nmdc/msg_chat.go:331-341`. -/
def UserCommand.callPath [HtmlEntities] (dec : Codec) : List Bytes → Call UserCommand Unit
  | [] => pure ()
  | p :: ps =>
    if p = [] then UserCommand.callPath dec ps
    else do
      let s ← run (mapErr (Str.unmarshal dec p) (.other 22))
      set fun m => { m with path := m.path ++ [s] }
      UserCommand.callPath dec ps

/-- `UserCommand.UnmarshalNMDC`, `nmdc/msg_chat.go:297-349`. -/
def UserCommand.call [HtmlEntities] (dec : Codec) (data : Bytes) : Call UserCommand Unit :=
  match splitMax (trimSpaceU data) c!" " 3 with
  | a0 :: a1 :: rest => do
    let t ← run (atoiTrim a0)
    set fun m => { m with typ := t }
    let c ← run (atoiTrim (a1.takeWhile (fun b => c!"0" ≤ b && b ≤ c!"9")))
    set fun m => { m with context := c }
    match rest with
    | [] => pure ()
    | val :: _ => do
      let i ← run (must (indexByte val c!"$") (.other 22))
      let _ ← run (if i < 1 then .err (.other 22) else .ok ())
      set fun m => { m with path := [] }
      UserCommand.callPath dec (split (trimRight (val.take i) (· = c!" ")) c!"\\")
      let cmd ← run (sliceFrom val (i + 1))
      let s ← run (Str.unmarshal dec cmd)
      set fun m => { m with command := s }
  | _ => run (.err (.other 22))

/-- `ConnectToMe.UnmarshalNMDC`, `nmdc/msg_ctm.go:72-111`. -/
def ConnectToMe.call [HtmlEntities] (dec : Codec) (data : Bytes) : Call ConnectToMe Unit := do
  let i ← run (must (indexByte data c!" ") (.other 34))
  let n ← run (Name.unmarshal dec (data.take i))
  set fun m => { m with targ := n }
  let data ← run (sliceFrom data (i + 1))
  let addr ← match indexByte data c!" " with
    | none => pure data
    | some i => do
      let d ← run (sliceFrom data (i + 1))
      let n ← run (Name.unmarshal dec d)
      set fun m => { m with src := n }
      pure (data.take i)
  set fun m => { m with address := (ctmFlags addr).1, kind := (ctmFlags addr).2.1, secure := (ctmFlags addr).2.2 || m.secure }

/-- `RevConnectToMe.UnmarshalNMDC`, `nmdc/msg_ctm.go:132-150`. -/
def RevConnectToMe.call [HtmlEntities] (dec : Codec) (data : Bytes) : Call RevConnectToMe Unit := do
  let i ← run (must (indexByte data c!" ") (.other 35))
  let a ← run (Name.unmarshal dec (data.take i))
  set fun m => { m with frm := a }
  let d ← run (sliceFrom data (i + 1))
  let b ← run (Name.unmarshal dec d)
  set fun m => { m with to := b }

/-- `Failed.UnmarshalNMDC` and `Error.UnmarshalNMDC`, `nmdc/msg_errors.go:31-40`, `60-69`. -/
def ErrMsg.call [HtmlEntities] (dec : Codec) (data : Bytes) : Call (Option Bytes) Unit := do
  let s ← run (Str.unmarshal dec data)
  set fun m => if s ≠ [] then some s else m

/-- A decoder that assigns its whole value at the end: `Name` and `String`, `nmdc/types.go:117`, `151`, the raw values, `FailOver`,
`Supports`, and `Names`, `nmdc/msg_user_list.go:81`. -/
def atEnd {σ : Type} (r : Res σ) : Call σ Unit := do
  let v ← run r
  set fun _ => v

/-- `Lock.UnmarshalNMDC`, `nmdc/msg_lock.go:57-84`: the message is cleared first. Then nothing fails. -/
def Lock.call (data : Bytes) : Call Lock Unit := do
  set fun _ => {}
  atEnd (Lock.unmarshal data)

/-- One field of `HubINFO.UnmarshalNMDC`, `nmdc/msg_ping.go:113-177`. -/
def HubINFO.callField [HtmlEntities] (dec : Codec) (n i : Nat) (f : Bytes) : Call HubINFO Unit :=
  match i with
  | 0 => do let s ← run (Str.unmarshal dec f); set fun m => { m with name := s }
  | 1 => set fun m => { m with host := f }
  | 2 => do let s ← run (Str.unmarshal dec f); set fun m => { m with desc := s }
  | 3 => do let k ← run (mapErr (atoiTrim f) (.other 50)); set fun m => { m with i1 := k }
  | 4 => do let k ← run (mapErr (atoiTrim f) (.other 50)); set fun m => { m with i2 := k }
  | 5 => do let k ← run (mapErr (atoiTrim f) (.other 50)); set fun m => { m with i3 := k }
  | 6 => do let k ← run (mapErr (atoiTrim f) (.other 50)); set fun m => { m with i4 := k }
  | 7 => set fun m => { m with soft := m.soft.parse f }
  | 8 => do let s ← run (Str.unmarshal dec f); set fun m => { m with owner := s }
  | 9 => do let s ← run (Str.unmarshal dec f); set fun m => { m with state := s }
  | 10 => set fun m => if n < 12 then { m with encoding := f } else m
  | _ => pure ()

/-- The loop over the fields. -/
def HubINFO.callFields [HtmlEntities] (dec : Codec) (n : Nat) : Nat → List Bytes → Call HubINFO Unit
  | _, [] => pure ()
  | i, f :: fs => do
    HubINFO.callField dec n i f
    HubINFO.callFields dec n (i + 1) fs

/-- `HubINFO.UnmarshalNMDC`, `nmdc/msg_ping.go:110-180`. -/
def HubINFO.call [HtmlEntities] (dec : Codec) (data : Bytes) : Call HubINFO Unit :=
  HubINFO.callFields dec (splitMax data c!"$" 13).length 0 (splitMax data c!"$" 13)

/-- The loop over the entries, `nmdc/msg_user_list.go:115-128`. -/
def UserIP.callEntries [HtmlEntities] (dec : Codec) : List Bytes → Call (List UserAddress) Unit
  | [] => pure ()
  | b :: bs => do
    let a ← run (UserIP.entry dec b)
    set fun m => m ++ [a]
    UserIP.callEntries dec bs

/-- `UserIP.UnmarshalNMDC`, `nmdc/msg_user_list.go:110-130`. -/
def UserIP.call [HtmlEntities] (dec : Codec) (data : Bytes) : Call (List UserAddress) Unit := do
  set fun _ => []
  UserIP.callEntries dec (splitDD (trimSuffix (trimSuffix data b!"\r") dd))

/-- The flags of `ADCGet`, `nmdc/msg_files.go:101-122`. -/
def ADCGet.callFlags : List Bytes → Call ADCGet Unit
  | [] => pure ()
  | f :: fs =>
    if f = b!"ZL1" then do
      set fun m => { m with compressed := true }
      ADCGet.callFlags fs
    else if hasPrefix f b!"DB" then do
      let d ← run (sliceFrom f 2)
      let n ← run (mapErr (parseUin64Trim d) (.other 40))
      set fun m => { m with downloaded := some n }
      ADCGet.callFlags fs
    else ADCGet.callFlags fs

/-- `ADCGet.UnmarshalNMDC`, `nmdc/msg_files.go:54-125`. -/
def ADCGet.call [HtmlEntities] (dec : Codec) (data : Bytes) : Call ADCGet Unit := do
  let p ← run (cutSpace data)
  let s ← run (Str.unmarshal dec p.1)
  set fun m => { m with contentType := s }
  let p ← run (cutSpace p.2)
  let s ← run (mapErr (Str.unmarshal dec p.1) (.other 42))
  set fun m => { m with identifier := s }
  let p ← run (cutSpace p.2)
  assign (fun k m => { m with start := k }) (mapErr (parseUin64Trim p.1) (.other 43)) 0
  let p ← run (cutSpaceOpt p.2)
  let l ← run (if p.1 = b!"-1" then pure (-1 : Int) else toI64 <$> mapErr (parseUin64Trim p.1) (.other 44))
  set fun m => { m with length := l }
  ADCGet.callFlags (split p.2 c!" ")

/-- `ADCSnd.UnmarshalNMDC`, `nmdc/msg_files.go:157-207`. -/
def ADCSnd.call [HtmlEntities] (dec : Codec) (data : Bytes) : Call ADCSnd Unit := do
  let p ← run (cutSpace data)
  let s ← run (Str.unmarshal dec p.1)
  set fun m => { m with contentType := s }
  let p ← run (cutSpace p.2)
  let s ← run (mapErr (Str.unmarshal dec p.1) (.other 42))
  set fun m => { m with identifier := s }
  let p ← run (cutSpace p.2)
  assign (fun k m => { m with start := k }) (mapErr (parseUin64Trim p.1) (.other 43)) 0
  let p ← run (cutSpaceOpt p.2)
  assign (fun k m => { m with length := k }) (mapErr (parseUin64Trim p.1) (.other 44)) 0
  if p.2.length > 0 then do
    let _ ← run (if p.2 ≠ b!"ZL1" then .err (.other 45) else .ok ())
    set fun m => { m with compressed := true }
  else pure ()

/-- `Direction.UnmarshalNMDC`, `nmdc/msg_files.go:229-253`. -/
def Direction.call (data : Bytes) : Call Direction Unit := do
  let p ← run (cutSpace data)
  let up ← run (if p.1 = b!"Download" then pure false else if p.1 = b!"Upload" then pure true else .err (.other 46))
  set fun m => { m with upload := up }
  let n ← run (mapErr (parseUin64Trim p.2) (.other 47))
  let _ ← run (if n < 1 ∨ n > 32767 then .err (.other 48) else .ok ())
  set fun m => { m with number := n }

/-- `m.TTH = new(TTH)`, then `m.TTH.UnmarshalBase32`, `nmdc/msg_search.go:189-193` and `385-389`. -/
def newHash {σ : Type} (f : Option Hash → σ → σ) (buf : Bytes) : Call σ Unit := fun s =>
  ((Hash.setBuffer .zero buf).2, f (some (Hash.setBuffer .zero buf).1) s)

/-- The size field of `unmarshalString`, `nmdc/msg_search.go:154-170`. -/
def Search.callSize (field : Bytes) : Call Search Unit :=
  match field with
  | [] => pure ()
  | c :: t =>
    if c = c!"-" then do
      let _ ← run (parseUin64Trim t)
      set fun m => { m with sizeRestricted := false, size := 0 }
    else assign (fun k m => { m with size := k }) (parseUin64Trim field) 0

/-- The hash or the pattern, `nmdc/msg_search.go:179-201`. -/
def Search.callTarget [HtmlEntities] (dec : Codec) (typ : Nat) (field : Bytes) : Call Search Unit :=
  if typ = 9 then do
    let _ ← run (if hasPrefix field b!"TTH:" then .ok () else .err (.other 64))
    let hash ← run (sliceFrom field 4)
    newHash (fun h m => { m with tth := h }) (if hash.getLast? = some c!"$" then hash.dropLast else hash)
  else do
    let s ← run (Str.unmarshal dec field)
    set fun m => { m with pattern := replaceByte s c!"$" c!" " }

/-- `unmarshalString`, `nmdc/msg_search.go:129-203`. -/
def Search.callString [HtmlEntities] (dec : Codec) (data : Bytes) : Call Search Unit :=
  match splitMax data c!"?" 5 with
  | [f0, f1, f2, f3, f4] => do
    assign (fun b m => { m with sizeRestricted := b }) (boolFlag f0) false
    assign (fun b m => { m with isMaxSize := b }) (boolFlag f1) false
    Search.callSize f2
    let typ ← run (parseUin64Trim f3)
    set fun m => { m with dataType := typ }
    Search.callTarget dec typ f4
  | _ => run (.err (.other 65))

/-- `Search.UnmarshalNMDC`, `nmdc/msg_search.go:108-127`. -/
def Search.call [HtmlEntities] (dec : Codec) (data : Bytes) : Call Search Unit := do
  let i ← run (must (indexByte data c!" ") (.other 66))
  let field1 ← run (sliceFrom data (i + 1))
  if hasPrefix (data.take i) b!"Hub:" then do
    let v ← run (sliceFrom (data.take i) 4)
    let n ← run (Name.unmarshal dec v)
    set fun m => { m with user := n }
    Search.callString dec field1
  else do
    set fun m => { m with address := data.take i }
    Search.callString dec field1

/-- `nmdc/msg_search.go:364-375`. -/
def SR.callSlots (slots : Bytes) : Call SR Unit := do
  let i ← run (must (indexByte slots c!"/") (.other 72))
  assign (fun k m => { m with freeSlots := k }) (atoiTrim (slots.take i)) (atoiBeside (slots.take i))
  let r ← run (sliceFrom slots (i + 1))
  assign (fun k m => { m with totalSlots := k }) (atoiTrim r) (atoiBeside r)

/-- Hash or hub name, `nmdc/msg_search.go:377-403`; gives the rest. -/
def SR.callSource [HtmlEntities] (dec : Codec) (data : Bytes) : Call SR Bytes :=
  if hasPrefix data b!"TTH:" then do
    let data ← run (sliceFrom data 4)
    let _ ← run (if 40 ≥ data.length then .err (.other 73) else .ok ())
    let a ← run (at' data 39)
    let b ← run (at' data 40)
    let _ ← run (if a ≠ c!" " ∨ b ≠ c!"(" then .err (.other 73) else .ok ())
    let r ← run (sliceFrom data 41)
    newHash (fun h m => { m with tth := h }) (data.take 39)
    pure r
  else do
    let i ← run (must (index data b!" (") (.other 74))
    let r ← run (sliceFrom data (i + 2))
    let s ← run (Str.unmarshal dec (data.take i))
    set fun m => { m with hubName := s }
    pure r

/-- Hub address and recipient, `nmdc/msg_search.go:404-421`. -/
def SR.callTarget [HtmlEntities] (dec : Codec) (data : Bytes) : Call SR Unit := do
  let i ← run (must (indexByte data c!")") (.other 75))
  set fun m => { m with hubAddress := data.take i }
  let data ← run (sliceFrom data (i + 1))
  match data with
  | [] => pure ()
  | c :: t => do
    let _ ← run (if c ≠ 5 ∨ t = [] then .err (.other 76) else .ok ())
    let n ← run (Name.unmarshal dec t)
    set fun m => { m with dst := n }

/-- From the path on, `nmdc/msg_search.go:358-421`. -/
def SR.callTail [HtmlEntities] (dec : Codec) (path slots data : Bytes) : Call SR Unit := do
  let _ ← run (Str.unmarshal dec path)
  set fun m => { m with path := split path c!"\\" }
  SR.callSlots slots
  let data ← SR.callSource dec data
  SR.callTarget dec data

/-- Size and slots of a file result, `nmdc/msg_search.go:340-357`: slots and rest. -/
def SR.callFile (data : Bytes) : Call SR (Bytes × Bytes) := do
  set fun m => { m with isDir := false }
  let i ← run (must (indexByte data 5) (.other 70))
  let rest ← run (sliceFrom data (i + 1))
  let j ← run (must (indexByte (data.take i) c!" ") (.other 71))
  assign (fun k m => { m with size := k }) (parseUin64Trim ((data.take i).take j)) 0
  let slots ← run (sliceFrom (data.take i) (j + 1))
  pure (slots, rest)

/-- `SR.UnmarshalNMDC`, `nmdc/msg_search.go:291-422`. -/
def SR.call [HtmlEntities] (dec : Codec) (data : Bytes) : Call SR Unit := do
  let i ← run (must (indexByte data c!" ") (.other 68))
  let n ← run (Name.unmarshal dec (data.take i))
  let data ← run (sliceFrom data (i + 1))
  set fun m => { m with src := n }
  let i ← run (must (indexByte data 5) (.other 69))
  let rest ← run (sliceFrom data (i + 1))
  match SR.dirSplit (data.take i) with
  | some (path, slots) => do
    set fun m => { m with isDir := true, size := 0 }
    SR.callTail dec path slots rest
  | none => do
    let p ← SR.callFile rest
    SR.callTail dec (data.take i) p.1 p.2

/-- `UnmarshalBase32` of a hash that is part of the value. -/
def oldHash {σ : Type} (get : σ → Hash) (put : Hash → σ → σ) (buf : Bytes) : Call σ Unit := fun s =>
  (((get s).setBuffer buf).2, put ((get s).setBuffer buf).1 s)

/-- The hash of a short search, `nmdc/msg_search.go:446-452` and `481-487`; gives the rest. It is decoded into the old hash. -/
def callShort {σ : Type} (get : σ → Hash) (put : Hash → σ → σ) (data : Bytes) : Call σ Bytes := do
  let _ ← run (if 39 ≥ data.length then .err (.other 77) else .ok ())
  let c ← run (at' data 39)
  let _ ← run (if c ≠ c!" " then .err (.other 77) else .ok ())
  oldHash get put (data.take 39)
  run (sliceFrom data 40)

/-- `TTHSearchActive.UnmarshalNMDC`, `nmdc/msg_search.go:445-455`. -/
def SA.call (data : Bytes) : Call SA Unit := do
  let r ← callShort SA.tth (fun h m => { m with tth := h }) data
  set fun m => { m with address := r }

/-- `TTHSearchPassive.UnmarshalNMDC`, `nmdc/msg_search.go:480-494`. -/
def SP.call [HtmlEntities] (dec : Codec) (data : Bytes) : Call SP Unit := do
  let r ← callShort SP.tth (fun h m => { m with tth := h }) data
  let n ← run (Name.unmarshal dec r)
  set fun m => { m with user := n }

/-- The hub counts, `nmdc/msg_user.go:350-376`. -/
def MyINFO.callHubs (val : Bytes) : Call MyINFO Unit :=
  if val.length = 0 then set fun m => { m with hubsNormal := 1 }
  else if (indexByte val c!"/").isNone then
    assign (fun k m => { m with hubsNormal := k }) (mapErr (atoiTrim val) (.other 80)) (atoiBeside val)
  else
    match splitN val c!"/" 3 with
    | some [x, y, z] => do
      assign (fun k m => { m with hubsNormal := k }) (mapErr (atoiTrim x) (.other 80)) (atoiBeside x)
      assign (fun k m => { m with hubsRegistered := k }) (mapErr (atoiTrim y) (.other 81)) (atoiBeside y)
      assign (fun k m => { m with hubsOperator := k }) (mapErr (atoiTrim z) (.other 82)) (atoiBeside z)
    | _ => run (.err (.other 83))

/-- The `switch` over one-letter keys, `nmdc/msg_user.go:340-387`. -/
def MyINFO.callLetter (key : Byte) (val : Bytes) : Call MyINFO Unit :=
  if key = c!"V" then set fun m => { m with client := { m.client with version := val } }
  else if key = c!"M" then set fun m => { m with mode := match val with | [c] => c | _ => 0 }
  else if key = c!"H" then MyINFO.callHubs val
  else if key = c!"S" then assign (fun k m => { m with slots := k }) (mapErr (atoiTrim val) (.other 84)) (atoiBeside val)
  else set fun m => { m with extra := m.extra.set (byteString key) val }

/-- One field of the tag, `nmdc/msg_user.go:316-387`; gives the name of the client. -/
def MyINFO.callTagField (first : Bool) (client : Bytes) (field : Bytes) : Call MyINFO Bytes :=
  if field.length = 0 then pure client
  else
    match indexByte field c!":" with
    | none => run (if first then .ok field else .err (.other 85))
    | some i =>
      if i = 0 then run (.err (.other 85))
      else do
        let val ← run (sliceFrom field (i + 1))
        match field.take i with
        | [k] => do
          MyINFO.callLetter (upperKey k) val
          pure client
        | key => do
          set fun m => { m with extra := m.extra.set key val }
          pure client

/-- The loop over the fields, `nmdc/msg_user.go:307-388`. -/
def MyINFO.callTagFields : Bool → Bytes → List Bytes → Call MyINFO Bytes
  | _, client, [] => pure client
  | first, client, f :: fs => do
    let client ← MyINFO.callTagField first client f
    MyINFO.callTagFields false client fs

/-- `unmarshalTag`, `nmdc/msg_user.go:295-391`. -/
def MyINFO.callTag (tag : Bytes) : Call MyINFO Unit := do
  let p ← run (match tagVersion tag with
    | some i => do
      let r ← sliceFrom tag (i + 1)
      pure (tag.take i, r)
    | none => pure ([], tag))
  set fun m => { m with extra := [] }
  let client ← MyINFO.callTagFields true p.1 (split p.2 c!",")
  set fun m => { m with client := { m.client with name := client } }

/-- The first field, `nmdc/msg_user.go:230-250`: description, and whether there was a tag. -/
def MyINFO.callDesc (field : Bytes) : Call MyINFO (Bytes × Bool) := do
  set fun m => { m with mode := 0 }
  match lastIndexByte field c!"<" with
  | none => pure (field, false)
  | some i => do
    let tag ← run (sliceFrom field (i + 1))
    let _ ← run (if tag.length = 0 then .err (.other 86) else .ok ())
    MyINFO.callTag (if tag.getLast? = some c!">" then tag.dropLast else tag)
    pure (field.take i, true)

/-- The connection and the flag, `nmdc/msg_user.go:268-277`. -/
def MyINFO.callConn [HtmlEntities] (dec : Codec) (field : Bytes) : Call MyINFO Unit :=
  match field.getLast? with
  | none => pure ()
  | some f => do
    set fun m => { m with flag := f }
    let s ← run (Str.unmarshal dec field.dropLast)
    set fun m => { m with conn := s }

/-- The five fields, `nmdc/msg_user.go:230-292`. -/
def MyINFO.callFields [HtmlEntities] (dec : Codec) (f1 f2 f3 f4 f5 : Bytes) : Call MyINFO Unit := do
  let p ← MyINFO.callDesc f1
  let s ← run (Str.unmarshal dec p.1)
  set fun m => { m with desc := s }
  match f2 with
  | [c] => do
    set fun m => if p.2 then m else { m with mode := if c = c!" " then 0 else c }
    MyINFO.callConn dec f3
    let s ← run (Str.unmarshal dec f4)
    set fun m => { m with email := s }
    set fun m => m.sizeField f5
  | _ => run (.err (.other 87))

/-- `MyINFO.UnmarshalNMDC`, `nmdc/msg_user.go:195-293`. -/
def MyINFO.call [HtmlEntities] (dec : Codec) (data : Bytes) : Call MyINFO Unit := do
  let _ ← run (if hasPrefix data b!"$ALL " then .ok () else .err (.other 90))
  let data ← run (sliceFrom data 5)
  let i ← run (must (indexByte data c!" ") (.other 88))
  let n ← run (Name.unmarshal dec (data.take i))
  let data ← run (sliceFrom data (i + 1))
  set fun m => { m with name := n }
  match split data c!"$" with
  | [f1, f2, f3, f4, f5, _] => MyINFO.callFields dec f1 f2 f3 f4 f5
  | _ => run (.err (.other 89))

/-- A method of a part of the value. -/
def Call.on {σ τ : Type} (mk : σ → τ) (c : Call σ Unit) (s : σ) : Res Unit × τ := ((c s).1, mk (c s).2)

/-- `UnmarshalNMDC` of the message behind a pointer: how it ends, and what is there afterwards. -/
def Msg.call [HtmlEntities] (dec : Codec) (data : Bytes) : Call Msg Unit
  | .chat m => Call.on .chat (ChatMessage.call dec data) m
  | .priv m => Call.on .priv (PrivateMessage.call dec data) m
  | .mcTo m => Call.on .mcTo (MCTo.call dec data) m
  | .userCommand m => Call.on .userCommand (UserCommand.call dec data) m
  | .connectToMe m => Call.on .connectToMe (ConnectToMe.call dec data) m
  | .revConnectToMe m => Call.on .revConnectToMe (RevConnectToMe.call dec data) m
  | .errMsg k m => Call.on (.errMsg k) (ErrMsg.call dec data) m
  | .name k m => Call.on (.name k) (atEnd (Name.unmarshal dec data)) m
  | .text k m => Call.on (.text k) (atEnd (Str.unmarshal dec data)) m
  | .noArgs k => (NoArgs.unmarshal data, .noArgs k)
  | .value k m => Call.on (.value k) (atEnd (RawValue.unmarshal data)) m
  | .failOver m => Call.on .failOver (atEnd (FailOver.unmarshal data)) m
  | .supports m => Call.on .supports (atEnd (Supports.unmarshal data)) m
  | .lock m => Call.on .lock (Lock.call data) m
  | .hubINFO m => Call.on .hubINFO (HubINFO.call dec data) m
  | .names k m => Call.on (.names k) (atEnd (Names.unmarshal dec data)) m
  | .userIP m => Call.on .userIP (UserIP.call dec data) m
  | .adcGet m => Call.on .adcGet (ADCGet.call dec data) m
  | .adcSnd m => Call.on .adcSnd (ADCSnd.call dec data) m
  | .direction m => Call.on .direction (Direction.call data) m
  | .search m => Call.on .search (Search.call dec data) m
  | .sr m => Call.on .sr (SR.call dec data) m
  | .sa m => Call.on .sa (SA.call data) m
  | .sp m => Call.on .sp (SP.call dec data) m
  | .myINFO m => Call.on .myINFO (MyINFO.call dec data) m
  | .raw t _ => (.ok (), .raw t data)

/-- What a call leaves behind the pointer. -/
def Msg.left [HtmlEntities] (dec : Codec) (m : Msg) (data : Bytes) : Msg := (Msg.call dec data m).2

end Verif.Nmdc
