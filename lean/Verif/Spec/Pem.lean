import Verif.Spec.Base64

/-!
# Files with PEM blocks (specification)
-/

namespace Verif.Spec.Pem

/-- The ends of lines. -/
def eols : List Bytes := [b!"\n", b!"\r\n"]

/-- Base64 text, in lines of any length: nothing, or lines that are all ended. -/
def Body (b body : Bytes) : Prop :=
  (body = [] ∨ body.getLast? = some c!"\n") ∧ (∀ c ∈ body, c ∈ Base64.alphabet ∨ c ∈ b!"=\r\n \t") ∧
    body.filter (fun c => c ∉ b!"\r\n \t") = Base64.text b

/-- A header line of a block, with its end. -/
def Header (h : Bytes) : Prop := ∃ l, h = l ++ b!"\n" ∧ c!"\n" ∉ l ∧ c!":" ∈ l

/-- A first line with the type, header lines, the lines of the body and a last line. -/
def frame (typ eol : Bytes) (hs : List Bytes) (body z : Bytes) : Bytes :=
  b!"-----BEGIN " ++ typ ++ b!"-----" ++ eol ++ hs.flatten ++ body ++ b!"-----END " ++ z

/-- A block of type `typ` with the bytes `b`, without the end of its last line. After header lines the body is not empty. -/
def Block (typ b text : Bytes) : Prop :=
  c!"\n" ∉ typ ∧ c!":" ∉ typ ∧ ∃ eol ∈ eols, ∃ hs body, (∀ h ∈ hs, Header h) ∧ (hs = [] ∨ body ≠ []) ∧ Body b body ∧
    text = frame typ eol hs body (typ ++ b!"-----")

/-- Other text: none of its lines begins as a block does. -/
def Other (x : Bytes) : Prop := ∀ a b, x = a ++ b → (a = [] ∨ a.getLast? = some c!"\n") → ¬ b!"-----BEGIN " <+: b

/-- A line without its end. -/
def Line (l : Bytes) : Prop := c!"\n" ∉ l ∧ ∀ c, l.getLast? = some c → c ∉ b!"\r \t"

/-- A block with a character in it that is not base64, or with a last line that does not fit the first. -/
def Broken (text : Bytes) : Prop :=
  ∃ typ eol hs body z, c!"\n" ∉ typ ∧ eol ∈ eols ∧ (∀ h ∈ hs, Header h) ∧ body.getLast? = some c!"\n" ∧ c!"-" ∉ body ∧ c!":" ∉ body ∧
    Line z ∧ (z = typ ++ b!"-----" → ∃ c ∈ body, c ∉ Base64.alphabet ∧ c ∉ b!"=\r\n \t") ∧ text = frame typ eol hs body z

/-- The beginning of a block, up to the end of a line: a line that does not end as it should, or a block that is cut off. -/
def Cut (text : Bytes) : Prop :=
  (∃ l eol, Line l ∧ ¬ b!"-----" <:+ l ∧ eol ∈ eols ∧ text = b!"-----BEGIN " ++ l ++ eol) ∨
  (∃ typ eol, ∃ hs : List Bytes, ∃ body, c!"\n" ∉ typ ∧ eol ∈ eols ∧ (∀ h ∈ hs, Header h) ∧ body.getLast? = some c!"\n" ∧ c!"-" ∉ body ∧ c!":" ∉ body ∧
    text = b!"-----BEGIN " ++ typ ++ b!"-----" ++ eol ++ hs.flatten ++ body)

/-- A file, with its blocks in order. Other text before a block is ended by the end of a line, and so is a block, except at the end of the file.
Broken blocks do not count, nor do blocks that are cut off before another one begins. -/
inductive File : Bytes → List (Bytes × Bytes) → Prop
  | done {x : Bytes} : Other x → File x []
  | block {x typ b text eol rest : Bytes} {bs : List (Bytes × Bytes)} : Other x → (x = [] ∨ x.getLast? = some c!"\n") → Block typ b text →
      (eol ∈ eols ∨ (eol = [] ∧ rest = [])) → File rest bs → File (x ++ text ++ eol ++ rest) ((typ, b) :: bs)
  | broken {x text eol rest : Bytes} {bs : List (Bytes × Bytes)} : Other x → (x = [] ∨ x.getLast? = some c!"\n") → Broken text →
      eol ∈ eols → File rest bs → File (x ++ text ++ eol ++ rest) bs
  | cut {x text rest : Bytes} {bs : List (Bytes × Bytes)} : Other x → (x = [] ∨ x.getLast? = some c!"\n") → Cut text →
      b!"-----BEGIN " <+: rest → File rest bs → File (x ++ text ++ rest) bs

end Verif.Spec.Pem
