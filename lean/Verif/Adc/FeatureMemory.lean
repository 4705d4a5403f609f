import Verif.Adc.Left

/-!
# Variables that hold feature maps (`adc/types.go:94-196`, `adc/messages.go:155-171`)

A variable of type `ModFeatures`, such as the field `Features` of `Supported`, holds a reference to a map or nil.  In `Verif/Adc/Features.lean` and
`Verif/Adc/Left.lean` the maps are values.
-/

namespace Verif.Adc

open Verif.Go

/-- The maps in the order in which they were made, and the variables of a program. -/
structure FState where
  maps : List FeaList
  vars : Nat → Option Nat

/-- All variables are nil at first. -/
def FState.start : FState := ⟨[], fun _ => none⟩

/-- The value of a variable. -/
def FState.read (st : FState) (v : Nat) : ModFeatures := (st.vars v).map fun a => st.maps.getD a []

/-- A variable is set. -/
def FState.setVar (st : FState) (v : Nat) (a : Option Nat) : FState := { st with vars := fun x => if x = v then a else st.vars x }

/-- A variable is set to nil or to a map that was just made (`make`, `adc/types.go:97`, `134` and `177`). -/
def FState.fresh (st : FState) (v : Nat) : ModFeatures → FState
  | none => st.setVar v none
  | some l => { maps := st.maps ++ [l], vars := fun x => if x = v then some st.maps.length else st.vars x }

/-- The map of a variable is changed. -/
def FState.setMap (st : FState) (a : Nat) (l : FeaList) : FState := { st with maps := st.maps.set a l }

/-- The steps of a program. -/
inductive FOp where
  /-- `v = w`. -/
  | copy (v w : Nat)
  /-- `v = w.Clone()`. -/
  | clone (v w : Nat)
  /-- `v = w.SetFrom(x)`. -/
  | setFrom (v w x : Nat)
  /-- `v = w.Intersect(x)`. -/
  | intersect (v w x : Nat)
  /-- `v.UnmarshalADC(data)`; the same for the message `Supported`. -/
  | unmarshal (v : Nat) (data : Bytes)
  /-- `v[fea] = b`. -/
  | put (v : Nat) (fea : Feature) (b : Bool)

variable [ParseFloat]

/-- One step: the state and the result.  `Clone` (`adc/types.go:96-102`), `SetFrom` (lines 162-171) and `Intersect` (lines 173-186) make new maps.
`UnmarshalADC` (lines 122-152) makes a map for a nil variable and otherwise changes the map of the variable; only the end of the call is seen.
Assigning to a nil map panics. -/
def FState.step (st : FState) : FOp → FState × Res Unit
  | .copy v w => (st.setVar v (st.vars w), .ok ())
  | .clone v w => (st.fresh v (some (st.read w).clone), .ok ())
  | .setFrom v w x => (st.fresh v ((st.read w).setFrom (st.read x)), .ok ())
  | .intersect v w x => (st.fresh v ((st.read w).intersect (st.read x)), .ok ())
  | .unmarshal v data =>
    let r := ModFeatures.fill data (st.read v)
    match st.vars v with
    | none => (st.fresh v r.1, r.2)
    | some a => (st.setMap a r.1.entries, r.2)
  | .put v fea b =>
    match st.vars v with
    | none => (st, .panic)
    | some a => (st.setMap a ((st.maps.getD a []).assign fea b), .ok ())

/-- A program; the results of its steps. -/
def FState.run (st : FState) : List FOp → FState × List (Res Unit)
  | [] => (st, [])
  | op :: ops => (((st.step op).1.run ops).1, (st.step op).2 :: ((st.step op).1.run ops).2)

end Verif.Adc
