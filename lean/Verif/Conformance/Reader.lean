import Verif.Nmdc.Reader
import Verif.Tiger.Tree
import Verif.Tiger.HashVar
import Verif.Adc.Packets

/-!
# Instances of theorems, worked out on the model

As in `Verif.Conformance.Line`: cases of theorems that a wrong program breaks without a proof being involved.
-/

namespace Verif.Conformance.Reader

open Verif.Go Verif.Lineproto Verif.Nmdc Verif.Tiger

attribute [local instance] basicEntities

/-! ### Reading NMDC messages (`nmdc/reader.go`) -/

/-- The state of a call of `ReadMsg`. -/
def st0 : St := { dec := none, rdec := none, cur := none, arr := [], hit := none }

/-- What a call of `ReadMsg` makes of a line: a message or an error, or nothing, and the next line is read. -/
def line (env : Env) (b : Bytes) : Option (Except Err (Option Nmdc.Msg)) :=
  match round env (fun _ m _ => m) 32 (b, none) st0 with
  | .ret (some e) _ => some (.error e)
  | .ret none st => some (.ok st.cur)
  | _ => none

/-- The line gives this message. -/
def gives (env : Env) (b : Bytes) (m : Nmdc.Msg) : Bool :=
  match line env b with
  | some (.ok x) => x = some m
  | _ => false

/-- The line gives this error. -/
def fails (env : Env) (b : Bytes) (e : Err) : Bool :=
  match line env b with
  | some (.error x) => x = e
  | _ => false

/-- The line gives nothing. -/
def skips (env : Env) (b : Bytes) : Bool := (line env b).isNone

/-- `NmdcReader.conversation`. -/
example : skips {} b!"|" = true := by decide +kernel
example : gives {} b!"$Hello joe|" (.name .hello b!"joe") = true := by decide +kernel
example : gives {} b!"$Foo 1 2|" (.raw b!"Foo" b!"1 2") = true := by decide +kernel
example : fails {} b!"$|" .protocolViolation = true := by decide +kernel
example : gives {} b!"<joe> hi|" (.chat { name := b!"joe", text := b!"hi" }) = true := by decide +kernel
example : gives {} b!"<joe> &#124;$ &lt;b&gt; /%DCN036%/|" (.chat { name := b!"joe", text := b!"|$ <b> $" }) = true := by decide +kernel

/-- No NUL, and no command name that is not ASCII or too long. -/
example : fails {} (b!"$Hello j" ++ [0] ++ b!"|") .protocolViolation = true := by decide +kernel
example : fails {} (b!"<joe> a" ++ [0] ++ b!"|") .protocolViolation = true := by decide +kernel
example : fails {} (b!"$He" ++ [0xC3, 0xA9] ++ b!" joe|") .protocolViolation = true := by decide +kernel
example : gives {} (b!"$" ++ List.replicate 32 c!"A" ++ b!" x|") (.raw (List.replicate 32 c!"A") b!"x") = true := by decide +kernel
example : fails {} (b!"$" ++ List.replicate 33 c!"A" ++ b!" x|") .protocolViolation = true := by decide +kernel

/-- The white space behind the name may be any, and of several bytes. -/
example : gives {} (b!"<joe>" ++ [0xC2, 0xA0] ++ b!"hi|") (.chat { name := b!"joe", text := b!"hi" }) = true := by decide +kernel
example : gives {} (b!"<joe>" ++ [0xE3, 0x80, 0x80] ++ b!"ho|") (.chat { name := b!"joe", text := b!"ho" }) = true := by decide +kernel
example : gives {} b!"<a> b> c|" (.chat { name := b!"a", text := b!"b> c" }) = true := by decide +kernel

/-- A raw hook sees the text as it came, and the name of the command. -/
def spam : Env where
  rawHooks := [fun c a => if c = none ∧ a = b!"<joe> spam" ∨ c = some b!"Hello" ∧ a = b!"joe" then .drop else .accept]

example : skips spam b!"<joe> spam|" = true := by decide +kernel
example : skips spam b!"$Hello joe|" = true := by decide +kernel
example : gives spam b!"<joe> ham|" (.chat { name := b!"joe", text := b!"ham" }) = true := by decide +kernel
example : gives spam b!"$Hello joe smith|" (.name .hello b!"joe smith") = true := by decide +kernel

/-! ### Texts and numbers -/

/-- What is written for a text is read as the text, and no delimiter is in it. -/
example : ∀ t ∈ [b!"a&b", b!"a|b", b!"$x|&amp;", b!"&#36;", b!"&lt;<>&&"],
    (match Str.marshal none t with
    | .ok b => decide (Str.unmarshal none b = .ok t) && !(b.contains c!"|") && !(b.contains c!"$")
    | _ => false) = true := by decide +kernel

/-- What an entity stands for is not read again as a legacy escape. -/
example : Str.unmarshal none b!"/&#37;DCN036%/ /%DCN036%/" = .ok b!"/%DCN036%/ $" := by decide +kernel

/-- Only digits make numbers. -/
example : ∀ s ∈ [b!"1:", b!":", b!"/1", b!"1/", b!"", b!"1a", b!"--1"], atoiTrim s = .err errSyntax := by decide +kernel

/-- What is written for a name is read as the name. -/
example : ∀ t ∈ [b!"a&b", b!"joe", b!"&amp;", List.replicate 256 c!"a"],
    (match Name.marshal none t with
    | .ok b => decide (Name.unmarshal none b = .ok t)
    | _ => false) = true := by decide +kernel

/-- The characters of a name are checked before its text is decoded. -/
example : Name.unmarshal (some fun b => some (b.map fun c => if c = c!"$" then c!"a" else c)) b!"a$b" = .err (.other 12) := by
  decide +kernel

/-- The largest numbers. -/
example : parseUint b!"18446744073709551615" 64 = .ok 18446744073709551615 ∧ parseUint b!"18446744073709551616" 64 = .err errRange ∧
    parseInt b!"9223372036854775807" 64 = .ok 9223372036854775807 ∧ parseInt b!"9223372036854775808" 64 = .err errRange := by
  decide +kernel

/-- Different locks have different keys. -/
example : ∀ b : Byte, swapNibbles (swapNibbles b) = b := by
  apply forall_byte; decide +kernel

/-- A directory result has a path. -/
example : SR.dirSplit b!"1/2" = none ∧ SR.dirSplit b!"a 1/2" = some (b!"a", b!"1/2") ∧ SR.dirSplit b!"a 12" = none := by decide +kernel

/-! ### Tree hashes (`tiger/tth.go`) -/

/-- A toy hash function: the first two bytes and the sum. -/
def toyHash (b : Bytes) : Hash := ⟨b.take 2 ++ List.replicate (22 - (b.take 2).length) 0 ++ [b.foldl (· + ·) 0, b.length.toUInt8], by
  simp only [List.length_append, List.length_take, List.length_replicate, List.length_cons, List.length_nil]; omega⟩

/-- `Tiger.TreeHash`: leaves have the prefix 0, inner nodes the prefix 1, and a node without a partner goes up. -/
example : leavesTreeHash toyHash [toyHash b!"a", toyHash b!"b", toyHash b!"c"] =
    .ok (nodeHash toyHash (nodeHash toyHash (toyHash b!"a") (toyHash b!"b")) (toyHash b!"c")) := by
  simp [leavesTreeHash, levels, pairLoop]

example : treeHash toyHash [⟨b!"ab", none⟩] = .ok (toyHash (0 :: b!"ab")) ∧ treeHash toyHash [] = .ok (toyHash [0]) := by
  constructor <;> simp [treeHash, treeLoop, Src.read, treeLevels, tthBlock]

example : treeLeaves toyHash [⟨b!"ab", none⟩] = ([toyHash (0 :: b!"ab")], none) ∧ treeLeaves toyHash [] = ([toyHash [0]], none) ∧
    treeLeaves toyHash [⟨b!"ab", some .eof⟩] = ([toyHash (0 :: b!"ab")], none) := by
  refine ⟨?_, ?_, ?_⟩ <;> simp [treeLeaves, leavesLoop, Src.read, tthBlock]

/-- A first read without data is a leaf, as for `TreeHash`. -/
example : treeLeaves toyHash [⟨[], none⟩, ⟨b!"ab", none⟩] = ([toyHash [0], toyHash (0 :: b!"ab")], none) := by
  simp [treeLeaves, leavesLoop, Src.read, tthBlock]

/-- A level of three in place. -/
example : (treePairs toyHash 0 [toyHash b!"a", toyHash b!"b", toyHash b!"c"]).take 2 =
    [nodeHash toyHash (toyHash b!"a") (toyHash b!"b"), toyHash b!"c"] := by
  simp [treePairs, nodeHash]

/-! ### Base32 and ADC -/

/-- The bytes of the last group are counted. -/
example : Base32.into (List.replicate 7 0) b!"MFRGGZDFMY" = (b!"abcdef" ++ [0], .ok 6) := by decide +kernel

/-- Ends of lines in the text are skipped; padding may be missing, and it may be there. -/
example : Base32.into (List.replicate 7 0) (b!"MFRGGZDF" ++ [13, 10] ++ b!"MY") = (b!"abcdef" ++ [0], .ok 6) := by decide +kernel

example : Base32.into (List.replicate 7 0) (b!"ME" ++ List.replicate 6 0xFF) = (b!"a" ++ List.replicate 6 0, .ok 1) := by decide +kernel

/-- A feature has four letters. -/
example : ∀ s ∈ [b!"", b!"ABC", b!"ABCDE"], Adc.Feature.unmarshal s = .err (.other 100) := by decide +kernel

/-- The values of a list are separated. -/
example : Adc.marshalSlice b!"AB" .str true [b!"x", b!"y", b!""] = .ok (b!"ABx ABy AB", false) := by decide +kernel

end Verif.Conformance.Reader
