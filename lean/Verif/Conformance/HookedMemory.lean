import Verif.Conformance.Line
import Verif.Lineproto.HookedMemory

/-!
# Instances: line hooks that write to memory

As in `Verif.Conformance.Line`: single cases of the theorems of `LineHooksMemory`, computed from the model alone.
-/

namespace Verif.Conformance.HookedMemory

open Verif.Lineproto Verif.Lineproto.Mem Verif.Conformance.Line

set_option maxRecDepth 8000

/-- The state of the hooks: the names of those that were called and the lines as they saw them, and the slices they kept. -/
structure Log where
  seen : List (Nat × Bytes) := []
  kept : List Slice := []

abbrev H := LineHook Log Bool

/-- A hook that notes what it sees. -/
def note (n : Nat) (f : Bytes → Hook) : H := fun _ l s r h => .val (f (l.bytes h), { s with seen := s.seen ++ [(n, l.bytes h)] }, r, h)

/-- A hook that overwrites the line and keeps it. -/
def scribble (f : Bytes → Bytes) : H := fun _ l s r h => .val (.accept, { s with kept := s.kept ++ [l] }, r, h.set l.arr (f (h.mem l.arr)))

/-- A hook that overwrites every line that was kept. -/
def smear : H := fun _ _ s r h => .val (.accept, s, r, s.kept.foldl (fun h l => h.set l.arr (List.replicate (h.mem l.arr).length c!"?")) h)

/-- A hook that reads a line itself. -/
def reads : H := fun fuel _ s r h => match r.readLine toy world0 fuel h with
  | .val ((l, _), r, h) => .val (.accept, { s with seen := s.seen ++ [(9, match l with | some l => l.bytes h | none => [])] }, r, h)
  | .panic => .panic
  | .timeout => .timeout

/-- The results of `n` calls, and what the hooks saw. -/
def go (fs : List H) : Nat → Log → MReader Bool → Heap → Option (List (Bytes × Option Err) × List (Nat × Bytes))
  | 0, s, _, _ => some ([], s.seen)
  | n + 1, s, r, h => match r.hookedLine toy world0 fs 40 s h with
    | .val ((l, e), s, r, h) => (go fs n s r h).map fun x => ((match l with | some l => l.bytes h | none => [], e) :: x.1, x.2)
    | _ => none

def run (fs : List H) (src : Src) (n : Nat) : Option (List (Bytes × Option Err) × List (Nat × Bytes)) :=
  match (Mem.newReader src c!"|" mem0 : MReader Bool × Heap) with
  | (r, h) => go fs n {} r h

def short (b : Bytes) : Hook := if b.length ≤ 2 then .drop else .accept
def bad (b : Bytes) : Hook := if b.head? = some c!"!" then .fail (.other 5) else .accept

-- the order of the hooks, and the first that does not accept decides
example : run [note 1 short, note 2 bad] [⟨b!"abc|d", none⟩, ⟨b!"|!ef|gh|", none⟩] 3 =
  some ([(b!"abc|", none), ([], some (.other 5)), (b!"gh|", none)],
    [(1, b!"abc|"), (2, b!"abc|"), (1, b!"d|"), (1, b!"!ef|"), (2, b!"!ef|"), (1, b!"gh|"), (2, b!"gh|")]) := by decide +kernel
example : run [note 2 bad, note 1 short] [⟨b!"!|a|bcd|", none⟩] 2 =
  some ([([], some (.other 5)), (b!"bcd|", none)], [(2, b!"!|"), (2, b!"a|"), (1, b!"a|"), (2, b!"bcd|"), (1, b!"bcd|")]) := by decide +kernel

-- what a hook writes is seen by the next hook and by the caller
example : run [scribble (·.map (· + 1)), note 1 fun _ => .accept] [⟨b!"abc|", none⟩] 1 = some ([(b!"bcd}", none)], [(1, b!"bcd}")]) := by decide +kernel

-- what it writes is not seen in later lines
example : run [note 1 short, scribble (fun _ => b!"zzzzzzzzzz"), smear] [⟨b!"abc|d", none⟩, ⟨b!"|ef|ghi|", none⟩] 3 =
  some ([(b!"????", none), (b!"???", none), (b!"????", none)], [(1, b!"abc|"), (1, b!"d|"), (1, b!"ef|"), (1, b!"ghi|")]) := by decide +kernel

-- after a dropped line the next one begins anew
example : run [scribble (·.map (· + 1)), note 1 short] [⟨b!"a|bc|", none⟩] 1 = some ([(b!"cd}", none)], [(1, b!"b}"), (1, b!"cd}")]) := by decide +kernel

-- the end of the stream is not shown to the hooks
example : run [note 1 fun _ => .accept] [⟨b!"a|bc", none⟩] 2 = some ([(b!"a|", none), (b!"bc", some .eof)], [(1, b!"a|")]) := by decide +kernel

-- a hook that reads a line takes it away; the slice that is returned has the length of the first line
example : run [reads] [⟨b!"abc|def|ghi|", none⟩] 2 = some ([(b!"def|", none), (b!"ghi|", none)], [(9, b!"def|"), (9, [])]) := by decide +kernel

end Verif.Conformance.HookedMemory
