/-!
# Basic vocabulary shared by all models

Bytes, the possible endings of a Go call, and byte-string literals.
-/

namespace Verif

/-- Go `byte`. -/
abbrev Byte := UInt8

/-- Go `[]byte` and `string`. Aliasing and capacity are not part of the value. -/
abbrev Bytes := List UInt8

/-- Errors, classified as far as callers can tell them apart.
`io.EOF`, `io.ErrUnexpectedEOF`, `nmdc/reader.go:25-54` (protocol violation, unexpected command),
`nmdc/types.go` (`errUnknownEncoding`), sentinel errors of `lineproto`, and everything else. -/
inductive Err where
  | eof
  | unexpectedEOF
  | protocolViolation
  | unexpectedCommand (expected : Bytes) (typ : Bytes) (data : Bytes)
  | unknownEncoding (text : Bytes)
  | readerClosed
  | writerClosed
  | bufferExhausted
  | zlibAlreadyActive
  | zlibNotActive
  | shortWrite
  | other (code : Nat)
deriving DecidableEq, Repr, Inhabited

/-- How a Go call that returns `(value, error)` ends. `panic` is a run-time panic. -/
inductive Res (α : Type u) where
  | ok (a : α)
  | err (e : Err)
  | panic
deriving Repr, DecidableEq

namespace Res

@[inline] protected def bind {α : Type u} {β : Type v} : Res α → (α → Res β) → Res β
  | .ok a, f => f a
  | .err e, _ => .err e
  | .panic, _ => .panic

instance : Monad Res where
  pure := .ok
  bind := Res.bind

@[simp] theorem ok_bind {α β : Type u} (a : α) (f : α → Res β) : (Res.ok a >>= f) = f a := rfl
@[simp] theorem err_bind {α β : Type u} (e : Err) (f : α → Res β) : (Res.err e >>= f) = .err e := rfl
@[simp] theorem panic_bind {α β : Type u} (f : α → Res β) : ((Res.panic : Res α) >>= f) = .panic := rfl
@[simp] theorem pure_eq {α : Type u} (a : α) : (pure a : Res α) = .ok a := rfl
@[simp] theorem map_ok {α β : Type u} (a : α) (f : α → β) : f <$> (Res.ok a) = .ok (f a) := rfl
@[simp] theorem map_err {α β : Type u} (e : Err) (f : α → β) : f <$> (Res.err e : Res α) = .err e := rfl
@[simp] theorem map_panic {α β : Type u} (f : α → β) : f <$> (Res.panic : Res α) = .panic := rfl

instance : LawfulMonad Res := LawfulMonad.mk'
  (id_map := by intro α x; cases x <;> rfl)
  (pure_bind := by intros; rfl)
  (bind_assoc := by intro α β γ x f g; cases x <;> rfl)

theorem bind_eq_ok {α β : Type u} {x : Res α} {f : α → Res β} {b : β} :
    (x >>= f) = .ok b ↔ ∃ a, x = .ok a ∧ f a = .ok b := by
  cases x <;> simp

theorem bind_ne_panic {α β : Type u} {x : Res α} {f : α → Res β}
    (hx : x ≠ .panic) (hf : ∀ a, x = .ok a → f a ≠ .panic) : (x >>= f) ≠ .panic := by
  cases x with
  | ok a => simpa using hf a rfl
  | err e => simp
  | panic => exact absurd rfl hx

end Res

/-- `b!"text"` is the byte string with the UTF-8 bytes of the literal. -/
syntax:max (name := byteStr) "b!" str : term

macro_rules
  | `(b! $s:str) => do
    let elems : Array (Lean.TSyntax `term) :=
      (s.getString.toUTF8.toList.map (fun b => Lean.Syntax.mkNumLit (toString b.toNat))).toArray
    `(([$elems,*] : Bytes))

/-- `c!"x"` is the byte of a one-character ASCII literal. -/
syntax:max (name := byteChr) "c!" str : term

macro_rules
  | `(c! $s:str) => do
    match s.getString.toUTF8.toList with
    | [b] =>
      let n : Lean.TSyntax `term := Lean.Syntax.mkNumLit (toString b.toNat)
      `(($n : Byte))
    | _ => Lean.Macro.throwError "one ASCII character expected"

/-- A property of bytes may be checked on all 256 values. -/
theorem forall_byte {p : Byte → Prop} (h : ∀ n : Fin 256, p (UInt8.ofNat n.val)) : ∀ b, p b := by
  intro b
  have := h ⟨b.toNat, b.toNat_lt⟩
  simpa using this

end Verif
