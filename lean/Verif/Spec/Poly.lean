import Mathlib.Algebra.Ring.Defs
import Mathlib.Algebra.BigOperators.Group.List.Defs

/-!
# Specification: the value of a polynomial
-/

namespace Verif

/-- The value at `x` of the polynomial with the coefficients `cs`, constant term first:
`cs[0] + cs[1] * x + cs[2] * x ^ 2 + …` -/
def polyValue {F : Type} [Semiring F] (cs : List F) (x : F) : F :=
  (cs.mapIdx fun i c => c * x ^ i).sum

end Verif
