import Verif.Net.MPC
import Mathlib.Algebra.Field.Basic
import Mathlib.Algebra.BigOperators.Fin
import Mathlib.Algebra.Ring.Pi

/-!
# Univariates in evaluation form

Models `/repo/co-noir/ultrahonk/src/decider/univariate.rs` and `/repo/co-noir/co-noir-common/src/barycentric.rs`.
A univariate of size `n` is the list of the values of a polynomial at `0, …, n - 1`.
-/

namespace Verif.Honk

variable {F : Type} [Field F]

/-- `Univariate<F, SIZE>`.  The operators `+`, `-`, `*`, negation of `univariate.rs:229-471` work point by point, as do those of `Fin n → F`.
`/repo/co-noir/ultrahonk/src/decider/univariate.rs:9-12` -/
abbrev Univariate (F : Type) (n : Nat) : Type := Fin n → F

namespace Univariate

/-- The second argument of the operators that combine a univariate with a field element.
`/repo/co-noir/ultrahonk/src/decider/univariate.rs:249-257`, `291-300`, `380-449` -/
abbrev const {n : Nat} (x : F) : Univariate F n := fun _ => x

/-- `/repo/co-noir/ultrahonk/src/decider/univariate.rs:27-37` -/
def sqr {n : Nat} (a : Univariate F n) : Univariate F n := fun i => a i * a i

/-- `/repo/co-noir/ultrahonk/src/decider/univariate.rs:15-25` -/
def double {n : Nat} (a : Univariate F n) : Univariate F n := fun i => a i + a i

/-- `/repo/co-noir/ultrahonk/src/decider/univariate.rs:451-458` -/
def isZero [DecidableEq F] {n : Nat} (a : Univariate F n) : Bool := decide (∀ i, a i = 0)

/-! ### Extension -/

/-- The loop for two values: each value is the previous one plus the difference.  The result is the value at `k + 1`.
`/repo/co-noir/ultrahonk/src/decider/univariate.rs:64-68` -/
def extend2 (p0 p1 : F) : Nat → F
  | 0 => p1
  | k + 1 => extend2 p0 p1 k + (p1 - p0)

/-- The loop for three values.  The state is the value at `k + 2` and `extra`.
`/repo/co-noir/ultrahonk/src/decider/univariate.rs:69-84` -/
def extend3 (p0 p1 p2 : F) : Nat → F × F
  | 0 =>
    let a := (p2 + p0) * (2 : F)⁻¹ - p1
    let b := p1 - a - p0
    let a2 := a + a
    let aMul := a2 + a2
    (p2, aMul + a + b)
  | k + 1 =>
    let a := (p2 + p0) * (2 : F)⁻¹ - p1
    let a2 := a + a
    let s := extend3 p0 p1 p2 k
    (s.1 + s.2, s.2 + a2)

/-- The coefficients `a`, `b`, `c` of the cubic through four values.
`/repo/co-noir/ultrahonk/src/decider/univariate.rs:108-131` -/
def cubic (p0 p1 p2 p3 : F) : F × F × F :=
  let inverseSix := (6 : F)⁻¹
  let zeroTimes3 := (p0 + p0) + p0
  let zeroTimes6 := zeroTimes3 + zeroTimes3
  let zeroTimes12 := zeroTimes6 + zeroTimes6
  let oneTimes3 := (p1 + p1) + p1
  let oneTimes6 := oneTimes3 + oneTimes3
  let twoTimes3 := (p2 + p2) + p2
  let threeTimes2 := p3 + p3
  let threeTimes3 := threeTimes2 + p3
  let oneMinusTwoTimes3 := oneTimes3 - twoTimes3
  let oneMinusTwoTimes6 := oneMinusTwoTimes3 + oneMinusTwoTimes3
  let oneMinusTwoTimes12 := oneMinusTwoTimes6 + oneMinusTwoTimes6
  let a := (oneMinusTwoTimes3 + p3 - p0) * inverseSix
  let b := (zeroTimes6 - oneMinusTwoTimes12 - oneTimes3 - threeTimes3) * inverseSix
  let c := (p0 - zeroTimes12 + oneMinusTwoTimes12 + oneTimes6 + twoTimes3 + threeTimes2) * inverseSix
  (a, b, c)

/-- The state of the loop for four values. -/
structure Cubic (F : Type) where
  value : F
  idxSqrThreeTimesA : F
  xATerm : F
  linearTerm : F

/-- The loop for four values.  The state holds the value at `k + 3`.
`/repo/co-noir/ultrahonk/src/decider/univariate.rs:133-155` -/
def extend4 (p0 p1 p2 p3 : F) : Nat → Cubic F
  | 0 =>
    let (a, b, c) := cubic p0 p1 p2 p3
    let aPlusB := a + b
    let threeAPlusTwoB := (aPlusB + aPlusB) + a
    ⟨p3, (27 : F) * a, (18 : F) * a, (3 : F) * threeAPlusTwoB + (aPlusB + c)⟩
  | k + 1 =>
    let (a, b, _) := cubic p0 p1 p2 p3
    let aPlusB := a + b
    let threeA := a + a + a
    let sixA := threeA + threeA
    let threeAPlusTwoB := (aPlusB + aPlusB) + a
    let s := extend4 p0 p1 p2 p3 k
    ⟨s.value + s.idxSqrThreeTimesA + s.linearTerm, s.idxSqrThreeTimesA + (s.xATerm + threeA), s.xATerm + sixA,
      s.linearTerm + threeAPlusTwoB⟩

/-- `construct_lagrange_denominators`: the product of `i - j` over all `j ≠ i`.
`/repo/co-noir/co-noir-common/src/barycentric.rs:21-37` -/
def lagrangeDenominator (m i : Nat) : F := ∏ j ∈ Finset.range m, if j ≠ i then (i : F) - (j : F) else 1

/-- `construct_full_numerator_values`, at any point.  `/repo/co-noir/co-noir-common/src/barycentric.rs:98-116` -/
def fullNumerator (m : Nat) (x : F) : F := ∏ j ∈ Finset.range m, (x - (j : F))

/-- The general case.  A zero stays zero in a batch inversion.
`/repo/co-noir/ultrahonk/src/decider/univariate.rs:156-177`, `/repo/co-noir/co-noir-common/src/barycentric.rs:42-64` -/
def barycentric {m : Nat} (poly : Univariate F m) (x : F) : F :=
  (∑ j : Fin m, poly j * (lagrangeDenominator m j * (x - ((j : Nat) : F)))⁻¹) * fullNumerator m x

/-- `extend_from`; the argument is not longer than the result, which is always so where it is used.
`/repo/co-noir/ultrahonk/src/decider/univariate.rs:57-178` -/
def extendFrom {m : Nat} (n : Nat) (poly : Univariate F m) : Univariate F n := fun i =>
  if h : i.1 < m then poly ⟨i.1, h⟩
  else match m, poly with
    | 2, poly => extend2 (poly 0) (poly 1) (i.1 - 1)
    | 3, poly => (extend3 (poly 0) (poly 1) (poly 2) (i.1 - 2)).1
    | 4, poly => (extend4 (poly 0) (poly 1) (poly 2) (poly 3) (i.1 - 3)).value
    | _, poly => barycentric poly (i.1 : F)

/-- `evaluate`.  The division panics if the point is one of `1, …, SIZE - 1`.
`/repo/co-noir/ultrahonk/src/decider/univariate.rs:180-214` -/
def evaluate [DecidableEq F] {n : Nat} (a : Univariate F (n + 1)) (u : F) : Except Err F :=
  if u = 0 then .ok (a 0)
  else if ∃ i : Fin (n + 1), lagrangeDenominator (n + 1) i * (u - ((i : Nat) : F)) = 0 then .error (.panic "called `Option::unwrap()` on a `None` value")
  else .ok ((∑ i : Fin (n + 1), a i * (1 / (lagrangeDenominator (n + 1) i * (u - ((i : Nat) : F))))) * fullNumerator (n + 1) u)

end Univariate

end Verif.Honk
