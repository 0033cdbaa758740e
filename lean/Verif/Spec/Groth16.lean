import Verif.Groth16.Model
import Mathlib.LinearAlgebra.Lagrange
import Mathlib.Algebra.Polynomial.Div
import Mathlib.LinearAlgebra.BilinearMap
import Mathlib.RingTheory.RootsOfUnity.PrimitiveRoots
import Mathlib.Algebra.Field.ZMod

/-!
# Specification: rank-1 constraint systems, QAPs and Groth16

Read this file to understand the property statements about the Groth16 prover.  `z` is the full assignment of a
constraint system: the public inputs (the first one is the constant `1`) followed by the private witness.
-/

namespace Verif.Groth16

open Polynomial

variable {F G₁ G₂ GT : Type} [Field F]

/-- The constants that describe the scalar field are right: `p - 1 = 2 ^ twoAdicity * trace` with an odd `trace`, the
generators of the domains have the right orders, and no domain contains the generator of the field. -/
structure FftParams.Valid {p : Nat} [Fact p.Prime] (pr : FftParams (ZMod p)) : Prop where
  odd : p % 2 = 1
  modulus : pr.modulus = p
  order : p - 1 = 2 ^ pr.twoAdicity * pr.trace
  trace : pr.trace % 2 = 1
  domainGen : ∀ k ≤ pr.twoAdicity, IsPrimitiveRoot (pr.domainGen k) (2 ^ k)
  generator : ∀ k ≤ pr.twoAdicity, pr.generator ^ 2 ^ k ≠ 1
  generator_ne : pr.generator ≠ 0

/-- The value of one row: `∑ coefficient * variable`. -/
def rowValue (row : List (F × Nat)) (z : List F) : F := (row.map fun x => x.1 * z.getD x.2 0).sum

/-- The three matrices have one row per constraint and mention existing variables only. -/
structure Matrices.WellFormed (m : Matrices F) : Prop where
  a : m.a.length = m.numConstraints
  b : m.b.length = m.numConstraints
  c : m.c.length = m.numConstraints
  indexA : ∀ row ∈ m.a, ∀ x ∈ row, x.2 < m.numInstance + m.numWitness
  indexB : ∀ row ∈ m.b, ∀ x ∈ row, x.2 < m.numInstance + m.numWitness
  indexC : ∀ row ∈ m.c, ∀ x ∈ row, x.2 < m.numInstance + m.numWitness

/-- The assignment satisfies all constraints. -/
def Matrices.Satisfied (m : Matrices F) (z : List F) : Prop :=
  ∀ j < m.numConstraints, rowValue (m.a.getD j []) z * rowValue (m.b.getD j []) z = rowValue (m.c.getD j []) z

/-- The number of points of the domain: a power of two with room for all constraints and all public inputs. -/
def Matrices.power (m : Matrices F) : Nat := Nat.clog 2 (m.numConstraints + m.numInstance)

/-- The polynomial of degree below `n` with value `v j` at `w ^ j`. -/
noncomputable def interp (n : Nat) (w : F) (v : Nat → F) : F[X] :=
  Lagrange.interpolate (Finset.range n) (fun j => w ^ j) v

/-- The values that `A`, `B` and `C` take on the domain: one row after the other; for `A` the public inputs follow. -/
def Matrices.valueA (m : Matrices F) (z : List F) (j : Nat) : F :=
  if j < m.numConstraints then rowValue (m.a.getD j []) z
  else if j < m.numConstraints + m.numInstance then z.getD (j - m.numConstraints) 0
  else 0

@[inherit_doc Matrices.valueA]
def Matrices.valueB (m : Matrices F) (z : List F) (j : Nat) : F :=
  if j < m.numConstraints then rowValue (m.b.getD j []) z else 0

@[inherit_doc Matrices.valueA]
def Matrices.valueC (m : Matrices F) (z : List F) (j : Nat) : F :=
  if j < m.numConstraints then rowValue (m.c.getD j []) z else 0

/-- What snarkjs calls `H`: the values of `A * B - C` on the coset `shift * w ^ i`, where the polynomial `C` is given by
its values `A * B` on the domain. -/
noncomputable def Matrices.circomH (m : Matrices F) (w shift : F) (z : List F) : List F :=
  let n := 2 ^ m.power
  (List.range n).map fun i =>
    (interp n w (m.valueA z) * interp n w (m.valueB z)
      - interp n w (fun j => m.valueA z j * m.valueB z j)).eval (shift * w ^ i)

/-- `A * B - C`, which vanishes on the domain if and only if the assignment satisfies the constraints. -/
noncomputable def Matrices.qap (m : Matrices F) (w : F) (z : List F) : F[X] :=
  let n := 2 ^ m.power
  interp n w (m.valueA z) * interp n w (m.valueB z) - interp n w (m.valueC z)

/-- The coefficients of the polynomial `H` of degree below the size `n` of the domain that satisfies
`H * (X ^ n - 1) = A * B - C` on the coset `g * w ^ i`.  For a satisfying assignment this is the quotient. -/
noncomputable def Matrices.libsnarkH (m : Matrices F) (w g : F) (z : List F) : List F :=
  let n := 2 ^ m.power
  let shifted := interp n w fun j => (m.qap w z).eval (g * w ^ j) / (g ^ n - 1)
  (List.range n).map fun i => shifted.coeff i / g ^ i

/-- The first `2 ^ power` coefficients of a polynomial. -/
def coefficients (m : Matrices F) (h : F[X]) : List F := (List.range (2 ^ m.power)).map h.coeff

section Proof

variable [AddCommGroup G₁] [Module F G₁] [AddCommGroup G₂] [Module F G₂]

/-- `∑ zₖ • Pₖ` -/
def combine {V : Type} [AddCommGroup V] [Module F V] (points : List V) (z : List F) : V :=
  (List.zipWith (fun p (s : F) => s • p) points z).sum

/-- The Groth16 proof for the assignment `z` with `ℓ` public inputs, the coefficients `h` of the quotient polynomial and
the random values `r` and `s`. -/
def proofFor (pk : ProvingKey G₁ G₂) (z : List F) (ℓ : Nat) (h : List F) (r s : F) : Proof G₁ G₂ :=
  let a := pk.alphaG1 + combine pk.aQuery z + r • pk.deltaG1
  let b₁ := pk.betaG1 + combine pk.bG1Query z + s • pk.deltaG1
  { a
    b := pk.betaG2 + combine pk.bG2Query z + s • pk.deltaG2
    c := combine pk.lQuery (z.drop ℓ) + combine pk.hQuery h + s • a + r • b₁ - (r * s) • pk.deltaG1 }

/-- The inputs of the prover belong together: a well-formed constraint system that is not too large for the field, as many
public inputs (without the constant) and witness values as it has, and a key with enough points. -/
structure Fits (pr : FftParams F) (m : Matrices F) (pk : ProvingKey G₁ G₂) (inputs ws : List F) : Prop where
  wf : m.WellFormed
  power : m.power ≤ pr.twoAdicity
  inputs : inputs.length + 1 = m.numInstance
  witness : ws.length = m.numWitness
  aQuery : m.numInstance ≤ pk.aQuery.length
  bG1Query : m.numInstance ≤ pk.bG1Query.length
  bG2Query : m.numInstance ≤ pk.bG2Query.length

/-! ## Keys -/

/-- The coefficient of the variable `k` in a row. -/
def rowCoeff (row : List (F × Nat)) (k : Nat) : F := ((row.filter fun x => x.2 = k).map fun x => x.1).sum

/-- The polynomials of the variable `k`: their values on the domain are the coefficients of `k` in the rows.  The `A`
polynomials have additional rows, one for each public input. -/
noncomputable def Matrices.polyA (m : Matrices F) (w : F) (k : Nat) : F[X] :=
  interp (2 ^ m.power) w fun j =>
    if j < m.numConstraints then rowCoeff (m.a.getD j []) k
    else if k < m.numInstance ∧ j = m.numConstraints + k then 1 else 0

@[inherit_doc Matrices.polyA]
noncomputable def Matrices.polyB (m : Matrices F) (w : F) (k : Nat) : F[X] :=
  interp (2 ^ m.power) w fun j => if j < m.numConstraints then rowCoeff (m.b.getD j []) k else 0

@[inherit_doc Matrices.polyA]
noncomputable def Matrices.polyC (m : Matrices F) (w : F) (k : Nat) : F[X] :=
  interp (2 ^ m.power) w fun j => if j < m.numConstraints then rowCoeff (m.c.getD j []) k else 0

/-- The secrets of a trusted setup. -/
structure Toxic (F : Type) where
  τ : F
  α : F
  β : F
  γ : F
  δ : F

/-- The combined polynomial `β A + α B + C` of the variable `k` at `τ`. -/
noncomputable def Matrices.abc (m : Matrices F) (w : F) (x : Toxic F) (k : Nat) : F :=
  x.β * (m.polyA w k).eval x.τ + x.α * (m.polyB w k).eval x.τ + (m.polyC w k).eval x.τ

/-- The part of the proving key that both kinds of setup have in common: `pk` comes from a trusted setup with the secrets
`x` for the constraint system `m` and the domain generated by `w`. -/
structure IsKey (m : Matrices F) (w : F) (x : Toxic F) (g₁ : G₁) (g₂ : G₂) (pk : ProvingKey G₁ G₂) : Prop where
  alphaG1 : pk.alphaG1 = x.α • g₁
  betaG1 : pk.betaG1 = x.β • g₁
  betaG2 : pk.betaG2 = x.β • g₂
  gammaG2 : pk.gammaG2 = x.γ • g₂
  deltaG1 : pk.deltaG1 = x.δ • g₁
  deltaG2 : pk.deltaG2 = x.δ • g₂
  aQuery : pk.aQuery = (List.range (m.numInstance + m.numWitness)).map fun k => (m.polyA w k).eval x.τ • g₁
  bG1Query : pk.bG1Query = (List.range (m.numInstance + m.numWitness)).map fun k => (m.polyB w k).eval x.τ • g₁
  bG2Query : pk.bG2Query = (List.range (m.numInstance + m.numWitness)).map fun k => (m.polyB w k).eval x.τ • g₂
  gammaAbcG1 : pk.gammaAbcG1 = (List.range m.numInstance).map fun k => (m.abc w x k / x.γ) • g₁
  lQuery : pk.lQuery = (List.range m.numWitness).map fun k => (m.abc w x (m.numInstance + k) / x.δ) • g₁

/-- The points for the quotient as in snarkjs: the odd Lagrange polynomials of the domain of twice the size, which is
generated by `v`. -/
def IsCircomKey (m : Matrices F) (v : F) (x : Toxic F) (g₁ : G₁) (pk : ProvingKey G₁ G₂) : Prop :=
  pk.hQuery = (List.range (2 ^ m.power)).map fun i =>
    ((Lagrange.basis (Finset.range (2 ^ (m.power + 1))) (fun j => v ^ j) (2 * i + 1)).eval x.τ / x.δ) • g₁

/-- The points for the quotient as in libsnark and arkworks: `τⁱ Z(τ) / δ`.  There are one less than the size of the
domain. -/
def IsLibsnarkKey (m : Matrices F) (x : Toxic F) (g₁ : G₁) (pk : ProvingKey G₁ G₂) : Prop :=
  pk.hQuery = (List.range (2 ^ m.power - 1)).map fun i => (x.τ ^ i * (x.τ ^ 2 ^ m.power - 1) / x.δ) • g₁

/-! ## Verification -/

variable [AddCommGroup GT] [Module F GT]

/-- The check of the verifier for the pairing `e` and the public inputs without the constant `1` (the target group is
written additively). `ark_groth16::verify_proof`, called in `/repo/co-circom/co-groth16/src/verifier.rs:17-31` -/
def Verifies (e : G₁ →ₗ[F] G₂ →ₗ[F] GT) (pk : ProvingKey G₁ G₂) (inputs : List F) (p : Proof G₁ G₂) : Prop :=
  inputs.length + 1 = pk.gammaAbcG1.length ∧
  e p.a p.b = e pk.alphaG1 pk.betaG2 + e (combine pk.gammaAbcG1 (1 :: inputs)) pk.gammaG2 + e p.c pk.deltaG2

end Proof

end Verif.Groth16
