import Verif.Adc.Marshal

/-!
# Feature maps (`adc/types.go:94-196`)

A Go map is the list of its entries; no key occurs twice (`Wf`).  Go visits a map in an unspecified order:
the order of the list stands for it, so that theorems about all lists are about all orders.
-/

namespace Verif.Adc

open Verif.Go

/-- The entries of a map. -/
abbrev FeaList := List (Feature × Bool)

/-- `m[k]` with the second result `ok`. -/
def FeaList.get (l : FeaList) (k : Feature) : Option Bool := l.lookup k

/-- `m[k] = v`. -/
def FeaList.assign (l : FeaList) (k : Feature) (v : Bool) : FeaList :=
  match l with
  | [] => [(k, v)]
  | (k', v') :: l => if k' = k then (k, v) :: l else (k', v') :: FeaList.assign l k v

/-- `ModFeatures`, `adc/types.go:94`; `none` is the nil map. -/
abbrev ModFeatures := Option FeaList

/-- Reading a nil map gives nothing. -/
def ModFeatures.entries (f : ModFeatures) : FeaList := f.getD []

/-- No key occurs twice. -/
def ModFeatures.Wf (f : ModFeatures) : Prop := (f.entries.map (·.1)).Nodup

/-- What the map says about a feature. -/
def ModFeatures.get (f : ModFeatures) (k : Feature) : Option Bool := f.entries.get k

/-- The loop `mf[k] = v` over all entries, `adc/types.go:98-100` and `167-169`. -/
def assignAll (mf : FeaList) : FeaList → FeaList
  | [] => mf
  | (k, v) :: l => assignAll (mf.assign k v) l

/-- `Clone`, `adc/types.go:96-102`. -/
def ModFeatures.clone (f : ModFeatures) : FeaList := assignAll [] f.entries

/-- The loop of `MarshalADC`, `adc/types.go:106-118`. -/
def modMarshalLoop : Bool → FeaList → Bytes
  | _, [] => []
  | first, (fea, st) :: l =>
    (if !first then b!" " else []) ++ (if st then b!"AD" else b!"RM") ++ fea.marshal ++ modMarshalLoop false l

/-- `ModFeatures.MarshalADC`, `adc/types.go:104-120`. -/
def ModFeatures.marshal (f : ModFeatures) : Bytes := modMarshalLoop true f.entries

/-- The struct of `adc/types.go:125-128`. -/
def modFields : List Fld :=
  [⟨"Add", b!"AD", false, .slice .str⟩, ⟨"Rm", b!"RM", false, .slice .str⟩]

/-- The loops of `adc/types.go:137-150`. -/
def modAssign (m : FeaList) (st : Bool) : List Bytes → Res FeaList
  | [] => .ok m
  | name :: names => do
    let fea ← Feature.unmarshal name
    modAssign (m.assign fea st) st names

/-- `ModFeatures.UnmarshalADC`, `adc/types.go:122-152`; `cur` is the map before the call. -/
def ModFeatures.unmarshal [ParseFloat] (s : Bytes) (cur : ModFeatures) : Res ModFeatures := do
  let out ← unmarshalRow modFields s (Row.zero modFields)
  let m ← modAssign cur.entries false out.2.1
  let m ← modAssign m true out.1
  .ok (some m)

/-- `IsSet`, `adc/types.go:154-160`. -/
def ModFeatures.isSet (f : ModFeatures) (s : Feature) : Bool := (f.get s).isSome

/-- `SetFrom`, `adc/types.go:162-171`. -/
def ModFeatures.setFrom (f fp : ModFeatures) : ModFeatures :=
  match f, fp with
  | none, none => none
  | f, fp => some (assignAll f.clone fp.entries)

/-- The loop of `Intersect`, `adc/types.go:178-184`. -/
def intersectLoop (fp : FeaList) (fi : FeaList) : FeaList → FeaList
  | [] => fi
  | (name, add) :: l =>
    intersectLoop fp (if add && (fp.get name == some true) then fi.assign name true else fi) l

/-- `Intersect`, `adc/types.go:173-186`. -/
def ModFeatures.intersect (f fp : ModFeatures) : ModFeatures :=
  match f, fp with
  | some f, some fp => some (intersectLoop fp [] f)
  | _, _ => none

/-- `Join`, `adc/types.go:188-196`. -/
def ModFeatures.join (f : ModFeatures) : Bytes := Go.join ((f.entries.filter (·.2)).map (·.1.marshal)) c!","

end Verif.Adc
