import Verif.Go.Basic

/-!
# Specification: what an NMDC line is
-/

namespace Verif.Spec

/-- The characters allowed in a command name: ASCII letters and digits and `/ - _ . :`. -/
def NameChar (b : Byte) : Prop :=
  (65 ≤ b.toNat ∧ b.toNat ≤ 90) ∨ (97 ≤ b.toNat ∧ b.toNat ≤ 122) ∨ (48 ≤ b.toNat ∧ b.toNat ≤ 57) ∨
    b ∈ b!"/-_.:"

/-- An acceptable command name. -/
def CmdName (max : Int) (typ : Bytes) : Prop :=
  typ ≠ [] ∧ (typ.length : Int) ≤ max ∧ ∀ b ∈ typ, NameChar b

/-- What a line is. -/
inductive Verdict where
  | violation
  | command (typ args : Bytes)
  | chat (text : Bytes)
deriving DecidableEq, Repr

/-- How a line that is not a keep-alive is to be understood. -/
inductive LineIs (max : Int) : Bytes → Verdict → Prop where
  /-- `$Name args|` -/
  | command (typ args : Bytes) (ht : CmdName max typ) (h0 : (0 : Byte) ∉ args) :
      LineIs max (b!"$" ++ typ ++ b!" " ++ args ++ b!"|") (.command typ args)
  /-- `$Name|` -/
  | bare (typ : Bytes) (ht : CmdName max typ) : LineIs max (b!"$" ++ typ ++ b!"|") (.command typ [])
  /-- a `$` and a name that is not acceptable -/
  | badName (typ rest : Bytes) (hs : c!" " ∉ typ) (ht : ¬ CmdName max typ) (hr : rest = [] ∨ rest.head? = some c!" ") :
      LineIs max (b!"$" ++ typ ++ rest ++ b!"|") .violation
  /-- a NUL byte anywhere -/
  | nul (line : Bytes) (h0 : (0 : Byte) ∈ line) : LineIs max line .violation
  /-- anything else is a chat message -/
  | chat (text : Bytes) (hne : text ≠ []) (hd : text.head? ≠ some c!"$") (h0 : (0 : Byte) ∉ text) :
      LineIs max (text ++ b!"|") (.chat text)

end Verif.Spec
