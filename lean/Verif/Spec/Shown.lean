/-!
# Sets of flags (specification)
-/

namespace Verif.Spec.Shown

/-- Flag number `i` is in the set that the number `t` stands for. A negative number stands for the set of two's complement, which holds all but finitely many. -/
def Has (t : Int) (i : Nat) : Prop := t / 2 ^ i % 2 = 1

end Verif.Spec.Shown
