import Verif.Conformance.Line
import Verif.Conformance.Reader
import Verif.Go.Slices

/-!
# Further instances

As in `Verif.Conformance.Line` and `Verif.Conformance.Reader`: single cases of theorems, computed from the model alone, of points
that the cases there do not touch.
-/

namespace Verif.Conformance.More

open Verif.Go Verif.Lineproto Verif.Nmdc Verif.Tiger Verif.Conformance.Line Verif.Conformance.Reader

attribute [local instance] basicEntities

set_option maxRecDepth 20000

/-! ### The line reader -/

/-- Another toy format: every byte stands for 2500 of it. -/
def wide : Inflater Bool where
  header _ _ := .ok true
  step _ c := if c = 0 then (false, []) else (true, List.replicate 2500 c)
  status z := if z then .running else .done

/-- `EnableZlib`, a line, and reads of a section. -/
def wideReads (sched : List (Nat × Bool)) (b : Bytes) (line : Bool) (left : Nat) (ns : List Nat) : Option (List (Bytes × Option Err)) :=
  match (newReader [⟨b, none⟩] 124).enableZlib wide 20 sched with
  | .val (_, r) =>
    match (if line then r.readLine wide 20 else .val (([], none), r)) with
    | .val (l, r') =>
      let rec go : Reader Bool → Nat → List Nat → Option (List (Bytes × Option Err))
        | _, _, [] => some []
        | r, left, n :: ns => match r.binRead wide 20 n left with
          | .val (x, left', r') => (go r' left' ns).map (x :: ·)
          | _ => none
      (go r' left ns).map fun xs => if line then l :: xs else xs
    | _ => none
  | _ => none

/-- `LineReader.session_exact`: what a read leaves of the buffer of decompressed bytes is there for the next one. -/
example : wideReads [(1, false)] (b!"xz|" ++ [0] ++ b!"abc") true 100 [1, 3, 2] =
    some [(b!"|", none), (b!"|", none), (b!"|||", none), (b!"||", none)] := by decide +kernel

/-- `LineReader.session_exact`: the end of the compressed part that comes with its last bytes is not the end of the section. -/
example : wideReads [(9000, true)] (b!"xza" ++ [0] ++ b!"bc") false 2502 [2500, 10, 10] =
    some [(List.replicate 2500 c!"a", none), (b!"bc", none), ([], some .eof)] := by decide +kernel

/-- A read of the zlib reader that is not to wait for anything gives a byte all the same. -/
example : wideReads [(0, false)] (b!"xza" ++ [0] ++ b!"bc") false 2502 [1, 1] = some [(b!"a", none), (b!"a", none)] := by decide +kernel

/-- The same with memory. -/
def wideMReads (sched : List (Nat × Bool)) (b : Bytes) (line : Bool) (left : Nat) (ns : List Nat) : Option (List (Bytes × Option Err)) :=
  match (Mem.newReader (Z := Bool) [⟨b, none⟩] 124 mem0) with
  | (r0, h0) => match r0.enableZlib wide 20 sched h0 with
  | .val (_, r, h) =>
    match (if line then r.readLine wide world0 20 h else .val ((none, none), r, h)) with
    | .val ((l, e), r', h') =>
      let rec go : Mem.MReader Bool → Mem.Heap → Nat → List Nat → Option (List (Bytes × Option Err))
        | _, _, _, [] => some []
        | r, h, left, n :: ns => match r.binRead wide world0 20 n left h with
          | .val (x, left', r', h') => (go r' h' left' ns).map (x :: ·)
          | _ => none
      (go r' h' left ns).map fun xs => if line then (match l with | some s => (s.bytes h', e) | none => ([], e)) :: xs else xs
    | _ => none
  | _ => none

/-- `LineMemory.results_are_values`. -/
example : wideMReads [(1, false)] (b!"xz|" ++ [0] ++ b!"abc") true 100 [1, 3, 2] =
    some [(b!"|", none), (b!"|", none), (b!"|||", none), (b!"||", none)] := by decide +kernel

example : wideMReads [(9000, true)] (b!"xza" ++ [0] ++ b!"bc") false 2502 [2500, 10, 10, 10] =
    some [(List.replicate 2500 c!"a", none), (b!"bc", none), ([], some .eof), ([], some .eof)] := by decide +kernel

example : wideMReads [(9000, true)] (b!"xzab" ++ [0] ++ b!"c") false 5001 [3000, 5000, 10] =
    some [(List.replicate 2500 c!"a" ++ List.replicate 500 c!"b", none), (List.replicate 2000 c!"b", none), (b!"c", none)] := by decide +kernel

example : wideMReads [(0, false)] (b!"xza" ++ [0] ++ b!"bc") false 2502 [1, 1] = some [(b!"a", none), (b!"a", none)] := by decide +kernel

/-- `append` to a slice without room makes another array and leaves the old one. -/
example :
    (match Mem.append world0 mem0 ⟨0, 2, 4⟩ b!"abc" with
    | (s, h) => (s.bytes h, (mem0.mem 0), h.mem 0, s.arr != 0)) = (b!"00abc", b!"0000", b!"0000", true) := by decide +kernel

/-! ### The line writer -/

/-- `LineWriter.sent_prefix`: a failing write of a full buffer. -/
example : wsession 4 [] [.fail 1 (.other 7)] [.line b!"ab|", .line b!"cdefgh|", .flush, .flush, .line b!"x|"] =
    some ([none, some (.other 7), some (.other 7), some (.other 7), some (.other 7)], b!"a") := by decide +kernel

example : wsession 4 [] [.fail 0 (.other 7)] [.line b!"ab|", .flush, .line b!"x|", .line b!"cdefgh|", .flush] =
    some ([none, some (.other 7), some (.other 7), some (.other 7), some (.other 7)], []) := by decide +kernel

/-- `Timeouts`: switching compression on sends what is buffered. -/
example : wsession 40 [] [] [.line b!"ab|", .enable 1] = some ([none, none], b!"ab|") := by decide +kernel

/-! ### NMDC -/

/-- `NmdcReader.conversation`: the name ends with the first `>` before white space; where there is none, with the last. -/
example : gives {} b!"<a>b>c|" (.chat { name := b!"a>b", text := b!"c" }) = true := by decide +kernel
example : gives {} b!"<|" (.chat { name := [], text := [] }) = true := by decide +kernel
example : gives {} b!"$Get1 x|" (.raw b!"Get1" b!"x") = true := by decide +kernel
example : fails {} b!"$Ge;t x|" .protocolViolation = true := by decide +kernel

/-- No text is too long. -/
example : Str.unmarshal none (List.replicate 5000 c!"a") = .ok (List.replicate 5000 c!"a") := by decide +kernel
example : Str.unmarshal (some some) (List.replicate 5000 c!"a") = .ok (List.replicate 5000 c!"a") := by decide +kernel

/-- The name of an entity ends with its letters. -/
example : Str.unmarshal none b!"&lt b &amp;lt &gt-x" = .ok b!"< b &lt >-x" := by decide +kernel

/-- Slots have any digits. -/
example : SR.dirSplit b!"a 9/9" = some (b!"a", b!"9/9") := by decide +kernel

/-- `escWith` of a key. -/
example : escWith keyReplace [0, 5, 36, 96, 124, 126, 1] =
    b!"/%DCN000%//%DCN005%//%DCN036%//%DCN096%//%DCN124%//%DCN126%/" ++ [1] := by decide +kernel

/-- The largest number of 64 bits, and the first that is not one. -/
example : parseUin64Trim b!"18446744073709551615" = .ok 18446744073709551615 ∧ parseUin64Trim b!"18446744073709551616" = .err errSyntax ∧
    parseUin64Trim b!"17999999999999999999" = .ok 17999999999999999999 := by decide +kernel

/-! ### Slices, Base32, ADC and tree hashes -/

/-- A slice may go to the end. -/
example : slice b!"abc" 1 3 = .ok b!"bc" ∧ slice b!"abc" 3 3 = .ok [] ∧ slice b!"abc" 1 4 = .panic := by decide +kernel

/-- All bytes in every place of a short group. -/
example : ∀ b : Byte, Base32.into [0, 0, 0] (Base32.encode [b, b, b]) = ([b, b, b], .ok 3) := by
  apply forall_byte; decide +kernel

example : ∀ b : Byte, Base32.into [0, 0] (Base32.encode [b, b]) = ([b, b], .ok 2) ∧ Base32.into [0, 0, 0, 0] (Base32.encode [b, b, b, b]) = ([b, b, b, b], .ok 4) := by
  apply forall_byte; decide +kernel

/-- `strconv.ParseFloat` of texts that are not numbers. -/
local instance : Adc.ParseFloat := ⟨fun _ => .bad⟩

/-- A number that 64 bits do not hold is refused. -/
example : Adc.unmarshalInt b!"9223372036854775807" 0 = .ok 9223372036854775807 ∧ Adc.unmarshalInt b!"9223372036854775808" 0 = .err errRange := by
  decide +kernel

/-- A list whose name does not occur stays as it was. -/
example : (Adc.unmarshalTagged [] (.slice .str) [b!"old"] : Res (List Bytes)) = .ok [b!"old"] := by rfl
example : (Adc.unmarshalTagged [b!"a", b!"b"] (.slice .str) [b!"old"] : Res (List Bytes)) = .ok [b!"a", b!"b"] := by rfl

/-- `Tiger.TreeHash` of two reads of a block. -/
example : treeLoop toyHash [] [⟨b!"ab", none⟩, ⟨b!"cd", none⟩, ⟨b!"ef", some .eof⟩] =
    ([toyHash (0 :: b!"ab"), toyHash (0 :: b!"cd"), toyHash (0 :: b!"ef")], none) := by
  simp [treeLoop, Src.read, tthBlock]

/-- `Tiger.TreeHash` of five leaves. -/
example : leavesTreeHash toyHash [toyHash b!"a", toyHash b!"b", toyHash b!"c", toyHash b!"d", toyHash b!"e"] =
    .ok (nodeHash toyHash (nodeHash toyHash (nodeHash toyHash (toyHash b!"a") (toyHash b!"b")) (nodeHash toyHash (toyHash b!"c") (toyHash b!"d"))) (toyHash b!"e")) := by
  simp [leavesTreeHash, levels, pairLoop]

/-- `EncodingErrors`: an encoding error of a text is the one that is returned. -/
def noBang : Codec := some fun b => if c!"!" ∈ b then none else some b

example : PrivateMessage.unmarshal noBang {} b!"joe From: ann $<ann> hi" = .ok { to := b!"joe", frm := b!"ann", name := b!"ann", text := b!"hi" } ∧
    PrivateMessage.unmarshal noBang {} b!"joe From: ann $<ann> hi!" = (Str.unmarshal noBang b!"hi!" >>= fun _ => .panic) ∧
    (PrivateMessage.unmarshal noBang {} b!"joe From: ann $<ann> hi!" matches .err _) := by decide +kernel

example : SR.unmarshal noBang {} (b!"joe a!\\b" ++ [5] ++ b!"12 1/2" ++ [5] ++ b!"hub (1.2.3.4)") = (Str.unmarshal noBang b!"a!\\b" >>= fun _ => .panic) ∧
    (SR.unmarshal noBang {} (b!"joe a\\b" ++ [5] ++ b!"12 1/2" ++ [5] ++ b!"hub (1.2.3.4)") matches .ok _) := by decide +kernel

end Verif.Conformance.More
