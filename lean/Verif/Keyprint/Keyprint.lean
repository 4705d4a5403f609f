import Verif.Go.Slices
import Verif.Go.Base32

/-!
# Key prints (`keyprint/keyprint.go`, `keyprint/tlskp/tlskp.go`)

The hash function `sha` and PEM decoding are parameters; a TLS connection is the list of its raw peer certificates.
-/

namespace Verif.Keyprint

open Verif.Go

variable (sha : Bytes → Bytes)

/-- `FromBytes`, `keyprint/keyprint.go:30-37`. -/
def fromBytes (b : Bytes) : Bytes := b!"SHA256/" ++ Base32.encode (sha b)

/-- The loop of `FromCertificate`, `keyprint/keyprint.go:20-22`, and of `GetKeyPrints`, `keyprint/tlskp/tlskp.go:23-26`. -/
def printLoop (kps : List Bytes) : List Bytes → List Bytes
  | [] => kps
  | c :: cs => printLoop (kps ++ [fromBytes sha c]) cs

/-- `FromCertificate`, `keyprint/keyprint.go:15-24`; nil and empty are not told apart. -/
def fromCertificate (certs : List Bytes) : List Bytes :=
  if certs.length = 0 then [] else printLoop sha [] certs

/-- `GetKeyPrints`, `keyprint/tlskp/tlskp.go:20-28`. -/
def getKeyPrints (peer : List Bytes) : List Bytes := printLoop sha [] peer

/-- `ErrInvalidKeyPrint`, `keyprint/tlskp/tlskp.go:10-13`. -/
structure InvalidKeyPrint where
  expected : Bytes
  actual : List Bytes
deriving DecidableEq

/-- The loop of `VerifyKeyPrint`, `keyprint/tlskp/tlskp.go:34-38`. -/
def verifyLoop (kp : Bytes) : List Bytes → Bool
  | [] => false
  | k :: ks => if k = kp then true else verifyLoop kp ks

/-- `VerifyKeyPrint`, `keyprint/tlskp/tlskp.go:32-40`. -/
def verifyKeyPrint (peer : List Bytes) (kp : Bytes) : List Bytes × Option InvalidKeyPrint :=
  let kps := getKeyPrints sha peer
  if verifyLoop kp kps then (kps, none) else (kps, some ⟨kp, kps⟩)

/-- `pem.Decode`: the type and bytes of the next block and the rest of the data, which is shorter. -/
structure Pem where
  decode : Bytes → Option (Bytes × Bytes × Bytes)
  shorter : ∀ d t b rest, decode d = some (t, b, rest) → rest.length < d.length

/-- The loop of `FromFile`, `keyprint/keyprint.go:46-56`. -/
def fileLoop (P : Pem) (kps : List Bytes) (data : Bytes) : List Bytes :=
  match h : P.decode data with
  | none => kps
  | some (t, b, rest) =>
    if t ≠ b!"CERTIFICATE" then fileLoop P kps rest
    else fileLoop P (kps ++ [fromBytes sha b]) rest
termination_by data.length
decreasing_by all_goals exact P.shorter _ _ _ _ h

/-- `FromFile`, `keyprint/keyprint.go:40-61`, from the result of `ioutil.ReadAll`. -/
def fromFile (P : Pem) (read : Bytes × Option Err) : Except Err (List Bytes) :=
  match read.2 with
  | some e => .error e
  | none =>
    let kps := fileLoop sha P [] read.1
    if kps.length = 0 then .error (.other 99) else .ok kps

end Verif.Keyprint
