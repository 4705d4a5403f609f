import Verif.Nmdc.Own

/-!
# What a reader makes of lines if the caller has registered types of its own
-/

namespace Verif.Nmdc.Own

open Verif.Go Verif.Lineproto

variable {U Z : Type}

/-- What becomes of a message that the package alone would have delivered: the payload of a raw message whose name the caller has
registered goes to the method of the caller's type, which is given the zero value. -/
def understood (calls : List (Bytes × U)) (u : Methods U) (dec : Codec) : Msg → Res (Msg ⊕ U)
  | .raw t d =>
    match calls.lookup t with
    | none => .ok (.inl (.raw t d))
    | some x =>
      match u.unmarshal dec d x with
      | (.ok _, x') => .ok (.inr x')
      | (.err e, _) => .err e
      | (.panic, _) => .panic
  | m => .ok (.inl m)

/-- The callbacks that do not see messages. -/
def Env.std (e : Env (Msg ⊕ U)) : Nmdc.Env := { keepAlive := e.keepAlive, rawHooks := e.rawHooks, unknownEnc := e.unknownEnc }

/-- No errors of the caller's methods that ask for another encoding. -/
def NoAsk (u : Methods U) (env : Env (Msg ⊕ U)) : Prop :=
  env.unknownEnc = none ∨ ∀ dec data x text, (u.unmarshal dec data x).1 ≠ .err (.unknownEncoding text)

/-- A decoding that fails does not make a raw message out of another message. -/
def KeepsRaw (left : Codec → Msg → Bytes → Msg) : Prop := ∀ dec m data t d, left dec m data = .raw t d → ∃ d', m = .raw t d'

/-- The reader of a program without the caller's types. -/
def OReader.std (r : OReader (Msg ⊕ U) Z) : NReader Z := ⟨r.lines, r.dec, r.maxCmdName, fun k => (r.env k).std⟩

/-- The result of `ReadMsg` for such a program, and what it is with the caller's types. -/
def withOwn (calls : List (Bytes × U)) (u : Methods U) (r : OReader (Msg ⊕ U) Z) :
    Exec (Except Err (Option Msg) × NReader Z) → Exec (Except Err (Option (Msg ⊕ U)) × OReader (Msg ⊕ U) Z)
  | .panic => .panic
  | .timeout => .timeout
  | .val (.error e, r') => .val (.error e, { r with lines := r'.lines, dec := r'.dec })
  | .val (.ok none, r') => .val (.ok none, { r with lines := r'.lines, dec := r'.dec })
  | .val (.ok (some m), r') =>
    match understood calls u r.dec m with
    | .ok v => .val (.ok (some v), { r with lines := r'.lines, dec := r'.dec })
    | .err e => .val (.error e, { r with lines := r'.lines, dec := r'.dec })
    | .panic => .panic

end Verif.Nmdc.Own
