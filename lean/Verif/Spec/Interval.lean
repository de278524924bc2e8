import Verif.Rope.Interval

/-!
# Meaning of intervals
-/

namespace Xi

/-- The position `x` is in the half-open interval. -/
def Interval.Has (iv : Interval) (x : Nat) : Prop := iv.start ≤ x ∧ x < iv.stop

end Xi
