import Mathlib.Algebra.Module.Defs
import Mathlib.Algebra.Field.Defs
import Mathlib.Algebra.BigOperators.Group.Finset.Basic
import Mathlib.Data.List.Forall2

/-!
# Specification: what it means to hold a Shamir sharing of a value

Read this file to understand the property statements about Shamir sharing.
-/

namespace Verif

variable {F V : Type} [Field F] [AddCommGroup V] [Module F V]

/-- The value at `x` of the polynomial with coefficients `c 0, …, c d`. -/
def polyAt (d : Nat) (c : Nat → V) (x : F) : V := ∑ k ∈ Finset.range (d + 1), x ^ k • c k

/-- The `n` parties hold a Shamir sharing of `v` of degree `d`: there is a polynomial of degree at
most `d` whose constant term is `v`, and party `i` (counted from `0`) holds its value at `i + 1`. -/
def IsShamir (F : Type) [Field F] [Module F V] {n : Nat} (d : Nat) (s : Fin n → V) (v : V) : Prop :=
  ∃ c : Nat → V, c 0 = v ∧ ∀ i, s i = polyAt d c ((i.val + 1 : Nat) : F)

/-- Vectors of sharings, position by position. -/
def IsShamirs (F : Type) [Field F] [Module F V] {n : Nat} (d : Nat) (s : Fin n → List V)
    (vs : List V) : Prop :=
  ∃ l : List (Fin n → V), (s = fun i => l.map (· i)) ∧ List.Forall₂ (IsShamir F d) l vs

/-- A double sharing: sharings of one value, of degree `t` and of degree `2t`. -/
def IsPair {n : Nat} (t : Nat) (p : Fin n → F × F) : Prop :=
  ∃ v, IsShamir F t (fun i => (p i).1) v ∧ IsShamir F (t * 2) (fun i => (p i).2) v

/-- The field is large enough for `n` parties: the evaluation points `0, 1, …, n` are different
elements of the field. -/
def PointsDistinct (F : Type) [Field F] (n : Nat) : Prop :=
  ∀ i j : Nat, i ≤ n → j ≤ n → (i : F) = (j : F) → i = j

end Verif
