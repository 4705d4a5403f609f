import Verif.Nmdc.Types
import Verif.Nmdc.Utils
import Verif.Go.Unicode

/-!
# Chat messages and user commands (`nmdc/msg_chat.go`)

`marshal` gives the bytes appended to the buffer; `unmarshal` takes the previous value of the receiver.
-/

namespace Verif.Nmdc

open Verif.Go Verif.Spec

/-- `nmdc/msg_chat.go:19-22`. -/
structure ChatMessage where
  name : Bytes := []
  text : Bytes := []
deriving DecidableEq, Repr

/-- `nmdc/msg_chat.go:35-49`. -/
def ChatMessage.marshal (enc : Codec) (m : ChatMessage) : Res Bytes := do
  let pre ← if m.name ≠ [] then do
      let n ← Name.marshal enc m.name
      pure (b!"<" ++ n ++ b!"> ")
    else pure []
  let t ← Str.marshal enc m.text
  pure (pre ++ t)

/-- The name loop, `nmdc/msg_chat.go:62-91`, as one scan over `rest = data[pos:]` that stops at the bytes
`IndexAny` looks for: `(i, off)`. `base` is the index after the previous `>`. -/
def chatScan : Bytes → Nat → Nat → Res (Nat × Nat)
  | [], _, base => if base = 0 then .err .protocolViolation else .ok (base - 1, 1)
  | c :: rest, pos, base =>
    if c = c!"\r" ∨ c = c!"\n" then
      if base = 0 then .err .protocolViolation else .ok (base - 1, 1)
    else if c = c!">" then
      if rest = [] then .ok (pos - base, 1)
      else
        match decodeRune rest with
        | some (r, sz) => if isSpaceRune r then .ok (pos, sz + 1) else chatScan rest (pos + 1) (pos + 1)
        | none => chatScan rest (pos + 1) (pos + 1)
    else chatScan rest (pos + 1) base

/-- `nmdc/msg_chat.go:51-111`. -/
def ChatMessage.unmarshal [HtmlEntities] (dec : Codec) (m : ChatMessage) (data : Bytes) : Res ChatMessage :=
  match data with
  | [] => do
    let t ← Str.unmarshal dec data
    pure { m with text := t }
  | c :: data' =>
    if c = c!"<" then do
      let (i, off) ← if data' = [] then pure (0, 0) else chatScan data' 0 0
      let name ← sliceTo data' i
      let rest ← sliceFrom data' (i + off)
      if name.length > maxName then .err .protocolViolation
      else do
        let n ← Name.unmarshal dec name
        let t ← Str.unmarshal dec rest
        pure { name := n, text := t }
    else do
      let t ← Str.unmarshal dec data
      pure { m with text := t }

/-- `nmdc/msg_chat.go:113-117`. -/
structure PrivateMessage where
  to : Bytes := []
  frm : Bytes := []
  name : Bytes := []
  text : Bytes := []
deriving DecidableEq, Repr

/-- `nmdc/msg_chat.go:123-143`. -/
def PrivateMessage.marshal (enc : Codec) (m : PrivateMessage) : Res Bytes := do
  let a ← Name.marshal enc m.to
  let b ← Name.marshal enc m.frm
  let c ← Name.marshal enc m.name
  let d ← Str.marshal enc m.text
  pure (a ++ b!" From: " ++ b ++ b!" $<" ++ c ++ b!"> " ++ d)

/-- `nmdc/msg_chat.go:145-183`. -/
def PrivateMessage.unmarshal [HtmlEntities] (dec : Codec) (_ : PrivateMessage) (data : Bytes) : Res PrivateMessage :=
  match index data b!" From: " with
  | none => .err (.other 20)
  | some i => do
    let to ← Name.unmarshal dec (data.take i)
    let data ← sliceFrom data (i + 7)
    match index data b!" $<" with
    | none => .err (.other 20)
    | some i => do
      let frm ← Name.unmarshal dec (data.take i)
      let data ← sliceFrom data (i + 3)
      match index data b!"> " with
      | none => .err (.other 20)
      | some i => do
        let name ← Name.unmarshal dec (data.take i)
        let text ← sliceFrom data (i + 2)
        let t ← Str.unmarshal dec text
        pure { to := to, frm := frm, name := name, text := t }

/-- `nmdc/msg_chat.go:185-188`. -/
structure MCTo where
  to : Bytes := []
  frm : Bytes := []
  text : Bytes := []
deriving DecidableEq, Repr

/-- `nmdc/msg_chat.go:194-209`. -/
def MCTo.marshal (enc : Codec) (m : MCTo) : Res Bytes := do
  let a ← Name.marshal enc m.to
  let b ← Name.marshal enc m.frm
  let d ← Str.marshal enc m.text
  pure (a ++ b!" $" ++ b ++ b!" " ++ d)

/-- `nmdc/msg_chat.go:211-237`. -/
def MCTo.unmarshal [HtmlEntities] (dec : Codec) (_ : MCTo) (data : Bytes) : Res MCTo :=
  match index data b!" $" with
  | none => .err (.other 21)
  | some i => do
    let to ← Name.unmarshal dec (data.take i)
    let data ← sliceFrom data (i + 2)
    match indexByte data c!" " with
    | none => .err (.other 21)
    | some i => do
      let frm ← Name.unmarshal dec (data.take i)
      let text ← sliceFrom data (i + 1)
      let t ← Str.unmarshal dec text
      pure { to := to, frm := frm, text := t }

/-- `nmdc/msg_chat.go:257-262`. Go `int` fields. -/
structure UserCommand where
  typ : Int := 0
  context : Int := 0
  path : List Bytes := []
  command : Bytes := []
deriving DecidableEq, Repr

/-- Conversion of an `int` to `uint64`. -/
def toU64 (k : Int) : Nat := (k % (2 ^ 64 : Int)).toNat

/-- The loop over the path, `nmdc/msg_chat.go:276-283`. -/
def marshalPath (enc : Codec) : List Bytes → Res (List Bytes)
  | [] => .ok []
  | s :: ps => do
    let w ← Str.marshal enc s
    let ws ← marshalPath enc ps
    pure (w :: ws)

/-- `nmdc/msg_chat.go:268-295`. -/
def UserCommand.marshal (enc : Codec) (m : UserCommand) : Res Bytes := do
  let bi := utoa (toU64 m.typ) ++ b!" " ++ utoa (toU64 m.context)
  let p ← if m.path ≠ [] then do
      let ws ← marshalPath enc m.path
      pure (b!" " ++ join ws c!"\\")
    else pure []
  if m.command = [] then pure (bi ++ p)
  else do
    let c ← Str.marshal enc m.command
    pure (bi ++ p ++ b!" $" ++ c)

/-- The loop over the path, `nmdc/msg_chat.go:331-341`. -/
def unmarshalPath [HtmlEntities] (dec : Codec) : List Bytes → Res (List Bytes)
  | [] => .ok []
  | p :: ps =>
    if p = [] then unmarshalPath dec ps
    else
      match Str.unmarshal dec p with
      | .ok s => do
        let ss ← unmarshalPath dec ps
        pure (s :: ss)
      | .err _ => .err (.other 22)
      | .panic => .panic

/-- `nmdc/msg_chat.go:297-349`. -/
def UserCommand.unmarshal [HtmlEntities] (dec : Codec) (m : UserCommand) (data : Bytes) : Res UserCommand :=
  match splitMax (trimSpaceU data) c!" " 3 with
  | a0 :: a1 :: rest => do
    let t ← atoiTrim a0
    let c ← atoiTrim (a1.takeWhile (fun b => c!"0" ≤ b && b ≤ c!"9"))
    match rest with
    | [] => pure { m with typ := t, context := c }
    | val :: _ =>
      match indexByte val c!"$" with
      | none => .err (.other 22)
      | some i =>
        if i < 1 then .err (.other 22)
        else do
          let path := trimRight (val.take i) (· = c!" ")
          let ps ← unmarshalPath dec (split path c!"\\")
          let cmd ← sliceFrom val (i + 1)
          let s ← Str.unmarshal dec cmd
          pure { typ := t, context := c, path := ps, command := s }
  | _ => .err (.other 22)

end Verif.Nmdc
