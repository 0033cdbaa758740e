import Verif.Gadgets.Poseidon2
import Verif.Rep3.Cols
import Mathlib.Algebra.BigOperators.Group.Finset.Basic

/-!
# Specification: Poseidon2

The permutation as the Poseidon2 paper defines it, with matrices; what it means for precomputed
powers to be right.  Of the model only the record of parameters and the record of precomputed vectors are used.
-/

namespace Verif.Poseidon2

open Finset (sum range)

variable {F : Type}

/-- The parameters `Poseidon2Params::new` accepts, with a state size for which there is a matrix.  For states of two
and of three elements the diagonal is the one the implementation has built in. -/
structure Params.WF [NatCast F] [One F] (p : Params F) : Prop where
  size : p.t ∈ [2, 3, 4, 8, 12, 16, 20, 24]
  diag : p.diagM1.length = p.t
  external : p.rcExternal.length = p.roundsFBeginning + p.roundsFEnd
  constants : ∀ rc ∈ p.rcExternal, rc.length = p.t
  internal : p.rcInternal.length = p.roundsP
  two : p.t = 2 → p.diagM1 = [1, ((2 : Nat) : F)]
  three : p.t = 3 → p.diagM1 = [1, 1, ((2 : Nat) : F)]

section Permutation

variable [CommRing F]

/-- Product of a matrix and a vector. -/
def matVec (A : Nat → Nat → F) (x : List F) : List F :=
  (List.range x.length).map fun i => ∑ j ∈ range x.length, A i j * x.getD j 0

/-- The matrix `M₄`. -/
def m4 (i j : Nat) : F :=
  (([[5, 7, 1, 3], [4, 6, 1, 1], [1, 3, 5, 7], [1, 1, 4, 6]] : List (List F)).getD i []).getD j 0

/-- The matrix of the external rounds: `circ(2, 1)`, `circ(2, 1, 1)`, `M₄`, `circ(2 M₄, M₄, …, M₄)`. -/
def externalMatrix (t : Nat) (i j : Nat) : F :=
  if t = 2 ∨ t = 3 then if i = j then 2 else 1
  else if t = 4 then m4 i j
  else if i / 4 = j / 4 then 2 * m4 (i % 4) (j % 4) else m4 (i % 4) (j % 4)

/-- The matrix of the internal rounds: ones, and the given values plus one on the diagonal. -/
def internalMatrix (diagM1 : List F) (i j : Nat) : F := if i = j then diagM1.getD i 0 + 1 else 1

/-- External round: constants, S-boxes, matrix. -/
def externalStep (p : Params F) (x rc : List F) : List F :=
  matVec (externalMatrix p.t) ((List.zipWith (· + ·) x rc).map (· ^ p.d))

/-- Internal round: the constant and the S-box act on the first element only. -/
def internalStep (p : Params F) (x : List F) (c : F) : List F :=
  matVec (internalMatrix p.diagM1) (match x with
    | [] => []
    | a :: rest => (a + c) ^ p.d :: rest)

/-- The permutation. -/
def poseidon2 (p : Params F) (x : List F) : List F :=
  let x := matVec (externalMatrix p.t) x
  let x := (p.rcExternal.take p.roundsFBeginning).foldl (externalStep p) x
  let x := p.rcInternal.foldl (internalStep p) x
  (p.rcExternal.drop p.roundsFBeginning).foldl (externalStep p) x

/-- The precomputed vectors the parties hold are shares (in the sense of `P`) of values `rs` and of their powers up
to the fifth, and the first `used` of them are used up. -/
structure IsPrecomputed {ι S : Type} (P : (ι → S) → F → Prop) (pre : ι → Precomputations S) (rs : List F)
    (used : Nat) : Prop where
  r : Cols P (fun i => (pre i).r) rs
  r2 : Cols P (fun i => (pre i).r2) (rs.map (· ^ 2))
  r3 : Cols P (fun i => (pre i).r3) (rs.map (· ^ 3))
  r4 : Cols P (fun i => (pre i).r4) (rs.map (· ^ 4))
  r5 : Cols P (fun i => (pre i).r5) (rs.map (· ^ 5))
  offset : ∀ i, (pre i).offset = used

end Permutation

/-- A user of the pool of precomputed powers: permutes states one after the other and passes the pool on. -/
def permuteAll {m : Type → Type} [Monad m] {σ π : Type} (perm : σ → π → m (σ × π)) :
    List σ → π → m (List σ × π)
  | [], pre => pure ([], pre)
  | x :: xs, pre => do
    let (y, pre) ← perm x pre
    let (ys, pre) ← permuteAll perm xs pre
    pure (y :: ys, pre)

end Verif.Poseidon2
