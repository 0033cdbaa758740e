import Mathlib.AlgebraicGeometry.EllipticCurve.Affine.Point
import Mathlib.Data.ZMod.Basic
import Mathlib.Algebra.Field.ZMod

/-!
# Specification: the curve `y² = x³ + a x + b` over the integers modulo a prime

The group of points is Mathlib's, so addition of points is the textbook one and does not depend on
anything in the model.
-/

namespace Verif

variable {p : Nat}

/-- The curve `y² = x³ + a x + b`. -/
def curve (a b : ZMod p) : WeierstrassCurve.Affine (ZMod p) := ⟨0, 0, 0, a, b⟩

/-- Its points, including the point at infinity `0`. -/
abbrev Pt (a b : ZMod p) := (curve a b).Point

/-- `P` is the affine point with coordinates `x`, `y`. -/
def HasCoords {a b : ZMod p} (P : Pt a b) (x y : ZMod p) : Prop := ∃ h, P = .some x y h

/-- `x`, `y`, `inf` describe `P` the way the code does: `inf` is one for the point at infinity and zero
otherwise, and `x`, `y` are the coordinates of a point that is not at infinity (and arbitrary for the point
at infinity). -/
def Describes {a b : ZMod p} (P : Pt a b) (x y inf : ZMod p) : Prop :=
  (P ≠ 0 ∧ inf = 0 ∧ HasCoords P x y) ∨ (P = 0 ∧ inf = 1)

end Verif
