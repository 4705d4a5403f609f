import Verif.Conformance.ReadFull
import Verif.Conformance.More
import Verif.Conformance.Url

/-!
# Instances: points that the other files of instances do not touch

As in `Verif.Conformance.Line`: cases of theorems that a wrong program breaks without a proof being involved.
-/

namespace Verif.Conformance.Mixed

open Verif.Go Verif.Lineproto Verif.Nmdc Verif.Tiger Verif.Conformance.ReadFull Verif.Conformance.Reader

attribute [local instance] basicEntities

set_option maxRecDepth 20000

/-- `EnableZlib`, a line, and the reads of a section. -/
def section' (sched : List (Nat × Bool)) (b : Bytes) (left : Nat) (ns : List Nat) : Option (List (Bytes × Option Err)) :=
  let rec go : Reader (Option Nat) → Nat → List Nat → Option (List (Bytes × Option Err))
    | _, _, [] => some []
    | r, left, n :: ns => match r.binRead blocks 60 n left with
      | .val (x, left', r') => (go r' left' ns).map (x :: ·)
      | _ => none
  match (newReader [⟨b, none⟩] 124).enableZlib blocks 60 sched with
  | .val (_, r) => match r.readLine blocks 60 with
    | .val (l, r) => (go r left ns).map (l :: ·)
    | _ => none
  | _ => none

/-- The same with memory. -/
def msection (sched : List (Nat × Bool)) (b : Bytes) (left : Nat) (ns : List Nat) : Option (List (Bytes × Option Err)) :=
  let W : Mem.World := ⟨fun _ => b!"|junk|", fun n => n + 1⟩
  let rec go (W : Mem.World) : Mem.MReader (Option Nat) → Mem.Heap → Nat → List Nat → Option (List (Bytes × Option Err))
    | _, _, _, [] => some []
    | r, h, left, n :: ns => match r.binRead blocks W 60 n left h with
      | .val (x, left', r', h') => (go W r' h' left' ns).map (x :: ·)
      | _ => none
  match Mem.newReader [⟨b, none⟩] 124 ⟨fun _ => b!"0000", 1⟩ with
  | (r, h) => match r.enableZlib blocks 60 sched h with
    | .val (_, r, h) => match r.readLine blocks W 60 h with
      | .val ((l, e), r, h) => (go W r h left ns).map ((match l with | some s => s.bytes h | none => [], e) :: ·)
      | _ => none
    | _ => none

/-- Both readers. -/
def Reads (sched : List (Nat × Bool)) (b : Bytes) (left : Nat) (ns : List Nat) (l : Option (List (Bytes × Option Err))) : Prop :=
  section' sched b left ns = l ∧ msection sched b left ns = l

instance (sched b left ns l) : Decidable (Reads sched b left ns l) := inferInstanceAs (Decidable (_ ∧ _))

/-- `LineReader.session_exact`: a section out of what is decompressed already, in small reads and in large ones. -/
example : Reads [(9, false), (9, false)] b!"xz9a|bcdefgh2ij0kl" 11 [1, 2, 1, 3, 5, 5, 5, 1] (some [(b!"a|", none), (b!"b", none), (b!"cd", none), (b!"e", none), (b!"fgh", none),
    (b!"ij", none), (b!"kl", none), ([], some .eof), ([], some .eof)]) := by decide +kernel

/-- A section that ends inside of what is decompressed; reads after its end. -/
example : Reads [(9, false)] b!"xz9a|bcdefgh2ij0kl" 4 [3, 9, 1, 1] (some [(b!"a|", none), (b!"bcd", none), (b!"e", none), ([], some .eof), ([], some .eof)]) := by
  decide +kernel

/-- The last bytes of the decompressed text, with the end of it beside them and without. -/
example : Reads [(2, true), (9, true)] b!"xz2a|3bcd0kl" 9 [9, 9, 9] (some [(b!"a|", none), (b!"bcd", none), (b!"kl", none), ([], some .eof)]) ∧
    Reads [(2, true), (2, true), (9, true)] b!"xz2a|3bcd0kl" 9 [2, 9, 9] (some [(b!"a|", none), (b!"bc", none), (b!"d", none), (b!"kl", none)]) := by decide +kernel

/-! ### Chat -/

/-- A `>` before a byte that begins no rune, and one before a letter; the name goes up to the last one. -/
example : gives {} b!"<a>b> c|" (.chat { name := b!"a>b", text := b!"c" }) = true := by decide +kernel
example : chatScan (b!"a>" ++ [0xFF]) 0 0 = .ok (1, 1) ∧ chatScan (b!"a>b>" ++ [0xFF, 0xFF] ++ b!"c\r") 0 0 = .ok (3, 1) := by decide +kernel

/-! ### Trees -/

/-- `Tiger.TreeHash` of seven leaves. -/
example : leavesTreeHash toyHash [toyHash b!"a", toyHash b!"b", toyHash b!"c", toyHash b!"d", toyHash b!"e", toyHash b!"f", toyHash b!"g"] =
    .ok (nodeHash toyHash (nodeHash toyHash (nodeHash toyHash (toyHash b!"a") (toyHash b!"b")) (nodeHash toyHash (toyHash b!"c") (toyHash b!"d")))
      (nodeHash toyHash (nodeHash toyHash (toyHash b!"e") (toyHash b!"f")) (toyHash b!"g"))) := by
  simp [leavesTreeHash, levels, pairLoop]

/-! ### Hosts -/

/-- A `%25` behind the bracket is no zone. -/
example : Url.parseHost b!"[::1]%25" = none ∧ Url.parseHost b!"[::1]:1" = some b!"[::1]:1" ∧ Url.parseHost b!"[a%25b]" = some b!"[a%b]" := by decide +kernel

/-! ### HTML -/

/-- What is no letter and no digit ends the name of an entity. -/
example : Str.unmarshal none b!"&amp-x &lt.y &gt[z" = .ok b!"&-x <.y >[z" := by decide +kernel

example : nameLoop b!"amp-x" 0 = 3 ∧ nameLoop b!"amp;x" 0 = 4 ∧ nameLoop b!"aZ9" 0 = 3 := by decide +kernel

end Verif.Conformance.Mixed
