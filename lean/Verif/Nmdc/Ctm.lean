import Verif.Nmdc.Types

/-!
# Connection requests (`nmdc/msg_ctm.go`)
-/

namespace Verif.Nmdc

open Verif.Go

/-- `nmdc/msg_ctm.go:14-28`. `kind` is a Go `int`; 0 active, 1 passive request, 2 passive response. -/
structure ConnectToMe where
  targ : Bytes := []
  src : Bytes := []
  address : Bytes := []
  kind : Int := 0
  secure : Bool := false
deriving DecidableEq, Repr

/-- `nmdc/msg_ctm.go:34-70`. -/
def ConnectToMe.marshal (enc : Codec) (m : ConnectToMe) : Res Bytes :=
  if m.targ = [] then .err (.other 30)
  else do
    let t ← Name.marshal enc m.targ
    let k ← if m.kind = 0 then pure [] else if m.kind = 1 then pure b!"N" else if m.kind = 2 then pure b!"R"
      else .err (.other 31)
    let s := if m.secure then b!"S" else []
    if m.kind ≠ 1 then
      if m.src ≠ [] then .err (.other 32) else pure (t ++ b!" " ++ m.address ++ k ++ s)
    else if m.src = [] then .err (.other 33)
    else do
      let n ← Name.marshal enc m.src
      pure (t ++ b!" " ++ m.address ++ k ++ s ++ b!" " ++ n)

/-- The flags at the end of the address, `nmdc/msg_ctm.go:92-109`: address, kind, and whether `S` was seen. -/
def ctmFlags (addr : Bytes) : Bytes × Int × Bool :=
  let s := addr.getLast? = some c!"S"
  let addr := if s then addr.dropLast else addr
  if addr.getLast? = some c!"N" then (addr.dropLast, 1, s)
  else if addr.getLast? = some c!"R" then (addr.dropLast, 2, s)
  else (addr, 0, s)

/-- `nmdc/msg_ctm.go:72-111`. `Src` and `Secure` are only ever set. -/
def ConnectToMe.unmarshal [HtmlEntities] (dec : Codec) (m : ConnectToMe) (data : Bytes) : Res ConnectToMe :=
  match indexByte data c!" " with
  | none => .err (.other 34)
  | some i => do
    let targ ← Name.unmarshal dec (data.take i)
    let data ← sliceFrom data (i + 1)
    let (src, addr) ← match indexByte data c!" " with
      | none => pure (m.src, data)
      | some i => do
        let d ← sliceFrom data (i + 1)
        let n ← Name.unmarshal dec d
        pure (n, data.take i)
    let (a, k, s) := ctmFlags addr
    pure { targ := targ, src := src, address := a, kind := k, secure := s || m.secure }

/-- `nmdc/msg_ctm.go:113-115`. -/
structure RevConnectToMe where
  frm : Bytes := []
  to : Bytes := []
deriving DecidableEq, Repr

/-- `nmdc/msg_ctm.go:121-130`. -/
def RevConnectToMe.marshal (enc : Codec) (m : RevConnectToMe) : Res Bytes := do
  let a ← Name.marshal enc m.frm
  let b ← Name.marshal enc m.to
  pure (a ++ b!" " ++ b)

/-- `nmdc/msg_ctm.go:132-150`. -/
def RevConnectToMe.unmarshal [HtmlEntities] (dec : Codec) (_ : RevConnectToMe) (data : Bytes) : Res RevConnectToMe :=
  match indexByte data c!" " with
  | none => .err (.other 35)
  | some i => do
    let a ← Name.unmarshal dec (data.take i)
    let d ← sliceFrom data (i + 1)
    let b ← Name.unmarshal dec d
    pure { frm := a, to := b }

end Verif.Nmdc
