import Verif.Go.Basic

/-!
# Extension sets (`nmdc/extensions.go`)

A Go map with empty values is the list of its keys; the invariant `Nodup` is proved, not assumed, for
maps built by the operations.  Go visits a map in an unspecified order: the loops take the order as an
argument, any permutation of the keys.
-/

namespace Verif.Nmdc



/-- `type Extensions map[string]struct{}`, `nmdc/extensions.go:74`; `none` is the nil map. -/
abbrev Extensions := Option (List Bytes)

/-- The keys of the map. -/
def Extensions.keys (f : Extensions) : List Bytes := f.getD []

/-- An order in which a `for range` over the map may visit it. -/
def Extensions.Order (f : Extensions) (o : List Bytes) : Prop := o.Perm f.keys

/-- Assigning to a key of a map that is not nil. -/
def insertKey (l : List Bytes) (name : Bytes) : List Bytes := if name ∈ l then l else l ++ [name]

/-- `nmdc/extensions.go:76-79`. -/
def Extensions.has (f : Extensions) (name : Bytes) : Bool := f.keys.contains name

/-- `nmdc/extensions.go:81-83`: assignment to a nil map panics. -/
def Extensions.set (f : Extensions) (name : Bytes) : Res Extensions :=
  match f with
  | none => .panic
  | some l => .ok (some (insertKey l name))

/-- `nmdc/extensions.go:85-91`; `o` is the order of the loop. -/
def Extensions.clone (o : List Bytes) : Extensions := some (o.foldl insertKey [])

/-- The loop of `nmdc/extensions.go:95-99` and `105-109`. -/
def Extensions.filterLoop (f : Extensions) : List Bytes → List Bytes → List Bytes
  | acc, [] => acc
  | acc, name :: rest => Extensions.filterLoop f (if f.has name then insertKey acc name else acc) rest

/-- `nmdc/extensions.go:93-101`; `o` is the order in which `f2` is visited. -/
def Extensions.intersect (f : Extensions) (o : List Bytes) : Extensions := some (f.filterLoop [] o)

/-- `nmdc/extensions.go:103-111`. -/
def Extensions.intersectList (f : Extensions) (f2 : List Bytes) : Extensions := some (f.filterLoop [] f2)

/-- Comparison of Go strings, byte by byte. -/
def strLe : Bytes → Bytes → Bool
  | [], _ => true
  | _ :: _, [] => false
  | a :: s, b :: t => if a = b then strLe s t else decide (a < b)

/-- `nmdc/extensions.go:113-120`; `o` is the order of the loop. `sort.Strings` is modelled by merge sort:
the sorted list is unique, whatever the algorithm (`Props.NmdcExtensions.sorted_unique`). -/
def Extensions.list (o : List Bytes) : List Bytes := o.mergeSort strLe

/-- `nmdc/extensions.go:31-43`, `Supports.Intersect` on the lists `Ext`. -/
def supportsIntersect (m m2 : List Bytes) : List Bytes :=
  let s := m.foldl insertKey []
  m2.foldl (fun r e => if s.contains e then r ++ [e] else r) []

end Verif.Nmdc
