import Verif.Go.Slices

/-!
# Arithmetic that is computed step by step
-/

namespace Verif.Go

/-- `f n`, with `n` computed before it is passed on. -/
def strict {α : Type} (n : Nat) (f : Nat → α) : α :=
  match n with
  | 0 => f 0
  | m + 1 => f (m + 1)

theorem strict_eq {α : Type} (n : Nat) (f : Nat → α) : strict n f = f n := by cases n <;> rfl

end Verif.Go
