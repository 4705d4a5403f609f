import Verif.Adc.Own
import Verif.Adc.Floats

/-!
# Concrete cases: messages of the caller's own types (`adc/marshal.go:43-159`, `adc/messages.go:26-52`)

The values were worked out by hand from the Go code.
-/

namespace Verif.Conformance.AdcOwn

open Verif.Go Verif.Adc Verif.Registry

local instance : ParseFloat := amd64.float64
local instance : ParseFloat32 := amd64.float32

abbrev I (z : IntSize) (s : Bytes) (cur : Int) : Int × Res Unit := readValue s (.int z) cur

/-! integers -/
example : I .i64 b!"9223372036854775807" 1 = (9223372036854775807, .ok ()) := by decide +kernel
example : I .i64 b!"9223372036854775808" 1 = (-9223372036854775808, .ok ()) := by decide +kernel
example : I .i64 b!"-9223372036854775808" 1 = (-9223372036854775808, .ok ()) := by decide +kernel
example : I .i64 b!"3000000000" 1 = (3000000000, .ok ()) := by decide +kernel
example : I .i64 b!"1e2" 1 = (100, .ok ()) := by decide +kernel
example : I .i64 b!"0x1p-1" 1 = (1, .ok ()) := by decide +kernel
example : I .i32 b!"16777217.0" 1 = (16777216, .ok ()) := by decide +kernel
example : I .i64 b!"16777217.0" 1 = (16777217, .ok ()) := by decide +kernel
example : I .i64 b!"1_6.0" 1 = (16, .ok ()) := by decide +kernel
example : I .i64 b!"-inf" 1 = (-9223372036854775808, .ok ()) := by decide +kernel
example : I .i64 b!"1.5" 1 = (1, .ok ()) := by decide +kernel
example : I .i64 b!"2.5" 1 = (1, .ok ()) := by decide +kernel
example : I .i64 b!"" 1 = (0, .ok ()) := by decide +kernel
example : I .i32 b!"2147483647" 1 = (2147483647, .ok ()) := by decide +kernel
example : I .i32 b!"-2147483648" 1 = (-2147483648, .ok ()) := by decide +kernel
example : I .i32 b!"2147483648" 1 = (-2147483648, .ok ()) := by decide +kernel
example : I .i32 b!"3000000000" 1 = (-1294967296, .ok ()) := by decide +kernel
example : I .i32 b!"1.5" 1 = (1, .ok ()) := by decide +kernel
example : I .i32 b!"2.5" 1 = (1, .ok ()) := by decide +kernel
example : I .i16 b!"32767" 1 = (32767, .ok ()) := by decide +kernel
example : I .i16 b!"32768" 1 = (-32768, .ok ()) := by decide +kernel
example : I .i16 b!"70000" 1 = (4464, .ok ()) := by decide +kernel
example : I .i16 b!"3000000000" 1 = (24064, .ok ()) := by decide +kernel
example : I .i16 b!"2.5" 1 = (1, .ok ()) := by decide +kernel

/-! strings and bools -/
abbrev S (s : Bytes) (cur : Bytes) : Bytes × Res Unit := readValue s .str cur
abbrev B (s : Bytes) (cur : Bool) : Bool × Res Unit := readValue s .bool cur
example : S b!"a\\sb" b!"x" = (b!"a b", .ok ()) := by decide +kernel
example : S b!"" b!"x" = (b!"", .ok ()) := by decide +kernel
example : B b!"1" false = (true, .ok ()) := by decide +kernel
example : B b!"0" false = (true, .ok ()) := by decide +kernel
example : B [0] true = (false, .ok ()) := by decide +kernel
example : B b!"" true = (false, .ok ()) := by decide +kernel
example : B b!"10" true = (true, .err (.other 102)) := by decide +kernel
example : B b!"10" false = (false, .err (.other 102)) := by decide +kernel

/-! pointers, slices and other types -/
abbrev P (s : Bytes) (cur : Option Int) : Option Int × Res Unit := readValue s (.ptr (.int .i64)) cur
abbrev L (s : Bytes) (cur : List Int) : List Int × Res Unit := readValue s (.slice (.int .i64)) cur
abbrev O (s : Bytes) (cur : Nat) : Nat × Res Unit := readValue s (.other Nat 0) cur
example : P b!"5" none = (some 5, .ok ()) := by decide +kernel
example : P b!"" (some 4) = (none, .ok ()) := by decide +kernel
example : P b!"x" (some 4) = (some 4, .err errSyntax) := by decide +kernel
example : P b!"1.5" (some 4) = (some 0, .ok ()) := by decide +kernel
example : L b!"" [1] = ([], .ok ()) := by decide +kernel
example : L b!"5" [1] = ([1], .err (.other 103)) := by decide +kernel
example : O b!"" 3 = (0, .ok ()) := by decide +kernel
example : O b!"5" 3 = (3, .err (.other 103)) := by decide +kernel

/-! a method gets the text, also if it is empty, and may leave a value although it fails -/
def method : GoType := .own Bytes b!"z" (fun s cur => (cur ++ s, if s.length = 1 then .ok () else .err (.other 900)))
abbrev M (s : Bytes) (cur : Bytes) : Bytes × Res Unit := readValue s method cur
example : M b!"a" b!"x" = (b!"xa", .ok ()) := by decide +kernel
example : M b!"" b!"x" = (b!"x", .err (.other 900)) := by decide +kernel
example : M b!"ab" b!"x" = (b!"xab", .err (.other 900)) := by decide +kernel
example : (show Option Bytes × Res Unit from readValue b!"a" (.ptr method) (some b!"x")) = (some b!"za", .ok ()) := by decide +kernel
example : (show Option Bytes × Res Unit from readValue b!"ab" (.ptr method) (some b!"x")) = (some b!"x", .err (.other 900)) := by decide +kernel

/-! values with a tag -/
abbrev TI (vals : List Bytes) (cur : Int) : Int × Res Unit := readTagged (.int .i64) vals cur
abbrev TL (vals : List Bytes) (cur : List Int) : List Int × Res Unit := readTagged (.slice (.int .i64)) vals cur
abbrev TM (vals : List Bytes) (cur : Bytes) : Bytes × Res Unit := readTagged method vals cur
example : TI [] 3 = (3, .ok ()) := by decide +kernel
example : TI [b!"5"] 3 = (5, .ok ()) := by decide +kernel
example : TI [b!""] 3 = (0, .ok ()) := by decide +kernel
example : TI [b!"5", b!"6"] 3 = (3, .err (.other 104)) := by decide +kernel
example : TL [b!"5", b!"6"] [3] = ([5, 6], .ok ()) := by decide +kernel
example : TL [b!"5", b!"", b!"1.5"] [3] = ([5, 0, 0], .ok ()) := by decide +kernel
example : TL [b!"5", b!"x"] [3] = ([3], .err errSyntax) := by decide +kernel
example : TL [] [3] = ([3], .ok ()) := by decide +kernel
example : TM [b!"a", b!"b"] b!"x" = (b!"xa", .ok ()) := by decide +kernel
example : TM [b!"ab", b!"b"] b!"x" = (b!"xab", .err (.other 900)) := by decide +kernel

/-! structs -/
def strs (cs : List Cell) : List (Bytes × Bool) := cs.map (fun c => (c.tag, c.exported))

/-- The strings in a struct whose fields are strings. -/
def str (c : Cell) : Option Bytes :=
  match c with
  | ⟨_, _, .str, v⟩ => some v
  | _ => none

def f (tag v : Bytes) : Cell := ⟨tag, true, .str, v⟩
def hidden (tag v : Bytes) : Cell := ⟨tag, false, .str, v⟩
def run (cs : List Cell) (s : Bytes) : List (Option Bytes) × Res Unit :=
  match (Target.struct cs).unmarshal s with
  | (.struct cs, r) => (cs.map str, r)
  | (_, r) => ([], r)

example : run [f b!"#" b!"a", f b!"AB" b!"b", f b!"#" b!"c", f b!"-" b!"d", f [] b!"e"] b!"x y ABz" =
    ([some b!"x", some b!"z", some b!"y", some b!"d", some b!"e"], .ok ()) := by decide +kernel
example : run [f b!"#" b!"a", f b!"AB" b!"b", f b!"#" b!"c"] b!"x ABy" = ([some b!"x", some b!"y", some b!"ABy"], .ok ()) := by decide +kernel
example : run [f b!"#" b!"a", f b!"#" b!"b", f b!"AB" b!"c"] b!"x" = ([some b!"x", some b!"b", some b!"c"], .panic) := by decide +kernel
example : run [f b!"AB" b!"a", f b!"CD" b!"b", f b!"EF" b!"c"] b!"EFx CDy CDz" = ([some b!"a", some b!"b", some b!"c"], .err (.other 104)) := by
  decide +kernel
example : run [hidden b!"AB" b!"a", f b!"CD" b!"b"] b!"CDx" = ([some b!"a", some b!"x"], .ok ()) := by decide +kernel
example : run [f b!"CD" b!"b", hidden b!"AB" b!"a"] b!"CDx ABy" = ([some b!"x", some b!"a"], .panic) := by decide +kernel
example : run [hidden b!"#" b!"a"] b!"x" = ([some b!"a"], .panic) := by decide +kernel
example : run [hidden b!"-" b!"a", hidden [] b!"b"] b!"x" = ([some b!"a", some b!"b"], .ok ()) := by decide +kernel
example : (Target.other.unmarshal b!"x").2 = .err (.other 130) := rfl
example : ((Target.own Bytes (fun s cur => (cur ++ s, .err (.other 9))) b!"v").unmarshal b!"x") =
    (.own Bytes (fun s cur => (cur ++ s, .err (.other 9))) b!"vx", .err (.other 9)) := rfl

/-! the registry -/
def types : Fin 3 → OwnType
  | 0 => ⟨.struct [f b!"#" []], true⟩
  | 1 => ⟨.own Bytes (fun s _ => (s, if s = b!"bad" then .err (.other 7) else .ok ())) [], false⟩
  | 2 => ⟨.other, true⟩
def T (b : Bytes) (h : b.length = 3 := by decide) : MsgType := ⟨b, h⟩
def reg : Reg MsgType (Msg ⊕ Fin 3) := [(T b!"AAA", .inr 0), (T b!"BBB", .inr 1), (T b!"CCC", .inr 2), (T b!"ZON", .inl .zon)]

/-- What became of a message. -/
def see : Res (OwnMsg (Fin 3)) → Res (Option (Fin 3) × Option (List (Option Bytes)))
  | .ok (.lib _) => .ok (none, none)
  | .ok (.own u (.struct cs)) => .ok (some u, some (cs.map str))
  | .ok (.own u _) => .ok (some u, none)
  | .err e => .err e
  | .panic => .panic

example : see (unmarshalMessageOf types reg (T b!"AAA") b!"x\\s") = .ok (some 0, some [some b!"x "]) := by decide +kernel
example : see (unmarshalMessageOf types reg (T b!"BBB") b!"x") = .panic := by decide +kernel
example : see (unmarshalMessageOf types reg (T b!"BBB") b!"bad") = .err (.other 7) := by decide +kernel
example : see (unmarshalMessageOf types reg (T b!"CCC") b!"x") = .err (.other 130) := by decide +kernel
example : unmarshalMessageOf types reg (T b!"ZON") b!"x" = .ok (.lib .zon) := rfl
example : unmarshalMessageOf types reg (T b!"DDD") b!"x" = .ok (.lib (.raw (T b!"DDD") b!"x")) := rfl
example : decodeMessageOf types reg (.lib (.raw (T b!"CCC") b!"x")) = (.lib (.raw (T b!"CCC") b!"x"), .err (.other 130)) := rfl
example : decodeMessageOf types reg (.lib .zoff) = (.lib .zoff, .ok ()) := rfl
example : (decodeMessageToOf (U := Fin 3) (.lib (.raw (T b!"CCC") b!"x")) (T b!"DDD") .other).2 = .err (.other 115) := rfl
example : (decodeMessageToOf (U := Fin 3) (.lib .zoff) (T b!"ZOF") .other).2 = .err (.other 114) := rfl
example : decodeMessageToOf (U := Fin 3) (.lib (.raw (T b!"CCC") b!"x")) (T b!"CCC") (.struct [f b!"#" []]) =
    (.struct [f b!"#" b!"x"], .ok ()) := by with_unfolding_all rfl

end Verif.Conformance.AdcOwn
