import Verif.Spec.Base32

/-!
# RFC 4648 base64, as arithmetic

Three bytes are a number written in base 256; their text is the same number written with four digits in base 64.
A short last group is completed with zero bytes; the characters that carry none of its bits are written as `=`.
-/

namespace Verif.Spec.Base64

open Verif.Spec.Base32 (number digits)

/-- The alphabet. -/
def alphabet : Bytes := b!"ABCDEFGHIJKLMNOPQRSTUVWXYZabcdefghijklmnopqrstuvwxyz0123456789+/"

/-- The first `k` of the four characters of a group. -/
def group (k : Nat) (a b c : Byte) : Bytes :=
  ((digits 64 4 (number 256 [a.toNat, b.toNat, c.toNat])).take k).map (fun d => alphabet.getD d 0)

/-- Text of a byte string. -/
def text : Bytes → Bytes
  | a :: b :: c :: s => group 4 a b c ++ text s
  | [a, b] => group 3 a b 0 ++ b!"="
  | [a] => group 2 a 0 0 ++ b!"=="
  | [] => []

end Verif.Spec.Base64
