import Verif.Rep3.State
import Mathlib.Algebra.Module.Defs
import Mathlib.Algebra.Field.Defs
import Mathlib.Data.Nat.Cast.Defs

/-!
# Model: Shamir sharing, Lagrange coefficients and interpolation

Models `/repo/mpc-core/src/protocols/shamir.rs:187-609`.

The scalar field is an arbitrary field `F`; shared values live in an `F`-module `V`: `V = F` gives the
functions on field elements (`evaluate_poly`, `share`, `reconstruct`, …), a curve group gives the
functions on points (`evaluate_poly_point`, `share_point`, `reconstruct_point`, …), whose code is the
same with `*` replaced by scalar multiplication.  `F::from(i as u64)` is the cast `(i : F)`.
`none` stands for a panic (`unwrap` / `expect` on the inverse of zero).
-/

namespace Verif.Shamir

variable {F V R : Type} [Field F] [AddCommGroup V] [Module F V]

/-- Horner evaluation from the last coefficient. The code panics on the empty polynomial, which no
caller passes; here its value is `0`.
`/repo/mpc-core/src/protocols/shamir.rs:335-344`, `347-356` -/
def evaluatePoly (poly : List V) (x : F) : V :=
  match poly.reverse with
  | [] => 0
  | c :: cs => cs.foldl (fun eval coeff => x • eval + coeff) c

/-- `/repo/mpc-core/src/protocols/shamir.rs:359-376`, `422-439` -/
def share (F : Type) [Field F] [Module F V] [Sample R V] (secret : V) (numShares degree : Nat)
    (rng : R) : List V × R :=
  let (cs, rng) := sampleN rng degree
  let coeffs := secret :: cs
  ((List.range numShares).map fun i => evaluatePoly coeffs ((i + 1 : Nat) : F), rng)

/-- One Lagrange coefficient: the numerator and denominator loops over all points whose *index*
differs. `/repo/mpc-core/src/protocols/shamir.rs:446-456` -/
def lagrangeNumDen (F : Type) [Field F] (coeffs : List Nat) (i : Nat) : F × F :=
  coeffs.foldl (fun (num, den) j =>
    if i ≠ j then (num * (j : F), den * ((j : F) - (i : F))) else (num, den)) (1, 1)

/-- `den.inverse()`: `None` for zero. -/
def inverse? [DecidableEq F] (x : F) : Option F := if x = 0 then none else some x⁻¹

/-- `/repo/mpc-core/src/protocols/shamir.rs:442-460` -/
def lagrangeFromCoeff (F : Type) [Field F] [DecidableEq F] (coeffs : List Nat) : Option (List F) :=
  coeffs.mapM fun i => do
    let (num, den) := lagrangeNumDen F coeffs i
    pure (num * (← inverse? den))

/-- `/repo/mpc-core/src/protocols/shamir.rs:483-491`, `601-609` -/
def reconstruct (shares : List V) (lagrange : List F) : V :=
  (List.zip shares lagrange).foldl (fun res (s, l) => res + l • s) 0

/-- Result of `combine_*`: the value, an `Err`, or a panic. -/
abbrev Combined (α : Type) := Except Err α

/-- `unwrap`: `none` is a panic. -/
def orPanic {α : Type} : Option α → Combined α
  | some x => .ok x
  | none => .error (.panic "called `Option::unwrap()` on a `None` value")

/-- `/repo/mpc-core/src/protocols/shamir.rs:200-224`, `307-332` -/
def combine (F : Type) [Field F] [DecidableEq F] [Module F V] (shares : List V) (coeffs : List Nat)
    (degree : Nat) : Combined V :=
  if shares.length ≠ coeffs.length then
    .error (.err "Number of shares does not match number of party indices")
  else if shares.length ≤ degree then
    .error (.err "Not enough shares to reconstruct the secret")
  else do
    let lagrange ← orPanic (lagrangeFromCoeff F (coeffs.take (degree + 1)))
    pure (reconstruct (shares.take (degree + 1)) lagrange)

/-- The loop of `share_field_elements`: share every value and append to every party's vector.
`/repo/mpc-core/src/protocols/shamir.rs:237-243` -/
def shareManyLoop (F : Type) [Field F] [Module F V] [Sample R V] (degree numParties : Nat) :
    List V → List (List V) → R → List (List V) × R
  | [], result, rng => (result, rng)
  | v :: vs, result, rng =>
    let (shares, rng) := share F v numParties degree rng
    shareManyLoop F degree numParties vs (List.zipWith (fun r s => r ++ [s]) result shares) rng

/-- `/repo/mpc-core/src/protocols/shamir.rs:227-246` -/
def shareMany (F : Type) [Field F] [Module F V] [Sample R V] (vals : List V)
    (degree numParties : Nat) (rng : R) : List (List V) × R :=
  shareManyLoop F degree numParties vals (List.replicate numParties []) rng

/-- `/repo/mpc-core/src/protocols/shamir.rs:249-293` (an index out of range, impossible after the length
checks, would be a panic) -/
def combineMany (F : Type) [Field F] [DecidableEq F] [Module F V] (shares : List (List V))
    (coeffs : List Nat) (degree : Nat) : Combined (List V) :=
  if shares.length ≠ coeffs.length then
    .error (.err "Number of shares does not match number of party indices")
  else if shares.length ≤ degree then
    .error (.err "Not enough shares to reconstruct the secret")
  else
    match shares with
    | [] => .error (.panic "index out of bounds")
    | first :: rest =>
      let numVals := first.length
      if rest.any (fun s => s.length != numVals) then
        .error (.err "Number of shares does not match number of shares in first party")
      else do
        let lagrange ← orPanic (lagrangeFromCoeff F (coeffs.take (degree + 1)))
        (List.range numVals).mapM fun i => do
          let s ← orPanic ((shares.take (degree + 1)).mapM (·[i]?))
          pure (reconstruct s lagrange)

/-- The body of the loop of `poly_times_root_inplace`: after inserting a zero in front, every entry
has the next one times the root subtracted. `prev` is the entry just before the remaining ones.
`/repo/mpc-core/src/protocols/shamir.rs:496-499` -/
def timesRootGo (root : F) : F → List F → List F
  | prev, [] => [prev]
  | prev, a :: as => (prev - a * root) :: timesRootGo root a as

/-- `/repo/mpc-core/src/protocols/shamir.rs:493-500` -/
def polyTimesRoot (poly : List F) (root : F) : List F := timesRootGo root 0 poly

/-- One interpolation polynomial: `1` at `i`, `0` at the other indices.
`/repo/mpc-core/src/protocols/shamir.rs:506-521` -/
def interpolationPoly (F : Type) [Field F] [DecidableEq F] (coeffs : List Nat) (i : Nat) :
    Option (List F) := do
  let (num, d) := coeffs.foldl (fun (num, d) j =>
    if i ≠ j then (polyTimesRoot num (j : F), d * ((i : F) - (j : F))) else (num, d)) ([1], 1)
  let c ← inverse? d
  pure (num.map (· * c))

/-- `/repo/mpc-core/src/protocols/shamir.rs:503-525` -/
def precomputeInterpolationPolys (F : Type) [Field F] [DecidableEq F] (coeffs : List Nat) :
    Option (List (List F)) :=
  coeffs.mapM (interpolationPoly F coeffs)

/-- `/repo/mpc-core/src/protocols/shamir.rs:528-542` -/
def interpolateFromPrecomputed (shares : List F) (precomputed : List (List F)) : List F :=
  (List.zip precomputed shares).foldl
    (fun res (i, p) => List.zipWith (fun r n => r + n * p) res i)
    (List.replicate shares.length 0)

/-- `/repo/mpc-core/src/protocols/shamir.rs:571-589` -/
def interpolationPolyFromZeroPoints (F : Type) [Field F] [DecidableEq F] (zeroPoints : List Nat) :
    Option (List F) := do
  let (num, d) := zeroPoints.foldl (fun (num, d) j => (polyTimesRoot num (j : F), d * (-(j : F))))
    ([1], 1)
  let c ← inverse? d
  pure (num.map (· * c))

/-- `/repo/mpc-core/src/protocols/shamir.rs:399-406`, `410-419` -/
def polyWithZerosFromPrecomputed (secret : V) (precomp : List F) : List V :=
  precomp.map (· • secret)

/-- `/repo/mpc-core/src/protocols/shamir.rs:592-598` -/
def interpolateFromSecretAndZeros [DecidableEq F] (secret : F) (zeroPoints : List Nat) :
    Option (List F) := do
  let num ← interpolationPolyFromZeroPoints F zeroPoints
  pure (polyWithZerosFromPrecomputed secret num)

/-- `/repo/mpc-core/src/protocols/shamir.rs:380-395` -/
def shareWithZeros [DecidableEq F] (secret : F) (zeroPoints sharePoints : List Nat) :
    Option (List F) := do
  let poly ← interpolateFromSecretAndZeros secret zeroPoints
  pure (sharePoints.map fun x => evaluatePoly poly (x : F))

end Verif.Shamir
