import Verif.Plonk.Model
import Verif.Spec.Plonk
import Mathlib.Algebra.Polynomial.Eval.Defs
import Mathlib.Algebra.Polynomial.Degree.Defs
import Mathlib.GroupTheory.Perm.Cycle.Basic

/-!
# Specification: soundness of the PLONK verifier

Read this file to understand what it means that the verifier only accepts true statements.  The prover is algebraic: whoever
makes the proof knows, for each point in it, a polynomial of which the point is the commitment.  The proof is made in five
rounds, and each challenge is drawn after the messages before it.  A challenge is *lucky* if it is in a small set that only
depends on what was sent before it.
-/

namespace Verif.Plonk

open Polynomial

variable {F G H : Type} [Field F]

/-! ## The circuit in a verification key -/

/-- The polynomials of a circuit with `2 ^ power` gates. -/
structure Circuit (F : Type) [Field F] where
  nPublic : Nat
  power : Nat
  k1 : F
  k2 : F
  qm : F[X]
  ql : F[X]
  qr : F[X]
  qo : F[X]
  qc : F[X]
  s1 : F[X]
  s2 : F[X]
  s3 : F[X]

/-- The number of gates. -/
abbrev Circuit.size (c : Circuit F) : Nat := 2 ^ c.power

/-- A wire of a gate. -/
abbrev Circuit.Wire (c : Circuit F) : Type := Column × Fin c.size

/-- The point that names a wire. -/
def Circuit.label (c : Circuit F) (ω : F) : c.Wire → F
  | (.a, i) => ω ^ i.1
  | (.b, i) => c.k1 * ω ^ i.1
  | (.c, i) => c.k2 * ω ^ i.1

/-- The permutation polynomial of a column. -/
def Circuit.sigma (c : Circuit F) : Column → F[X]
  | .a => c.s1
  | .b => c.s2
  | .c => c.s3

/-- The circuit is well formed: different wires have different names, the permutation polynomials encode `σ`, the polynomials have
degree at most `d`, and there are not more public inputs than gates. -/
structure Circuit.Valid (c : Circuit F) (ω : F) (σ : Equiv.Perm c.Wire) (d : Nat) : Prop where
  publicLe : c.nPublic ≤ c.size
  names : Function.Injective (c.label ω)
  sigma : ∀ x : c.Wire, (c.sigma x.1).eval (ω ^ x.2.1) = c.label ω (σ x)
  degree : ∀ p ∈ [c.qm, c.ql, c.qr, c.qo, c.qc, c.s1, c.s2, c.s3], p.natDegree ≤ d

/-- The values `x` of the wires satisfy the circuit: every gate holds, where the first gates take the public inputs, and wires
that the permutation joins carry the same value. -/
structure Circuit.Holds (c : Circuit F) (ω : F) (σ : Equiv.Perm c.Wire) (pub : List F) (x : c.Wire → F) : Prop where
  gates : ∀ i : Fin c.size, c.qm.eval (ω ^ i.1) * x (.a, i) * x (.b, i) + c.ql.eval (ω ^ i.1) * x (.a, i)
    + c.qr.eval (ω ^ i.1) * x (.b, i) + c.qo.eval (ω ^ i.1) * x (.c, i) + c.qc.eval (ω ^ i.1) =
      if i.1 < c.nPublic then pub.getD i.1 0 else 0
  copies : ∀ w, x (σ w) = x w

/-- The verification key of the circuit for the secret `τ`. -/
def Circuit.vk [AddCommGroup G] [Module F G] [AddCommGroup H] [Module F H] (c : Circuit F) (τ : F) (g₁ : G) (g₂ : H) : Vk F G H where
  nPublic := c.nPublic
  power := c.power
  k1 := c.k1
  k2 := c.k2
  qm := c.qm.eval τ • g₁
  ql := c.ql.eval τ • g₁
  qr := c.qr.eval τ • g₁
  qo := c.qo.eval τ • g₁
  qc := c.qc.eval τ • g₁
  s1 := c.s1.eval τ • g₁
  s2 := c.s2.eval τ • g₁
  s3 := c.s3.eval τ • g₁
  x2 := τ • g₂

/-- The polynomial with the coefficients `l`. -/
noncomputable def polyOf (l : List F) : F[X] := l.foldr (fun a p => C a + X * p) 0

/-- The circuit of a proving key. -/
noncomputable def Zkey.circuit (key : Zkey F G H) : Circuit F where
  nPublic := key.nPublic
  power := key.pow
  k1 := key.vk.k1
  k2 := key.vk.k2
  qm := polyOf key.qm.coeffs
  ql := polyOf key.ql.coeffs
  qr := polyOf key.qr.coeffs
  qo := polyOf key.qo.coeffs
  qc := polyOf key.qc.coeffs
  s1 := polyOf key.s1.coeffs
  s2 := polyOf key.s2.coeffs
  s3 := polyOf key.s3.coeffs

/-- What soundness needs in addition: different wires have different names, two wires carry the same signal exactly if the
permutation `σ` leads from one to the other, and the first gates only say that their first wire is the public input. -/
structure Zkey.Complete (key : Zkey F G H) (w : F) (σ : Equiv.Perm key.circuit.Wire) : Prop where
  names : Function.Injective (key.circuit.label w)
  encodes : ∀ x : key.circuit.Wire, polyValue (key.sigma x.1).coeffs (w ^ x.2.1) = key.circuit.label w (σ x)
  cycles : ∀ x y : key.circuit.Wire, key.signal x.1 x.2.1 = key.signal y.1 y.2.1 ↔ σ.SameCycle x y
  publicGates : ∀ i < key.nPublic, polyValue key.qm.coeffs (w ^ i) = 0 ∧ polyValue key.ql.coeffs (w ^ i) = 1 ∧
    polyValue key.qr.coeffs (w ^ i) = 0 ∧ polyValue key.qo.coeffs (w ^ i) = 0 ∧ polyValue key.qc.coeffs (w ^ i) = 0

/-! ## What the prover sends -/

/-- Before the challenge `β`. -/
structure Sent1 (F : Type) [Field F] where
  a : F[X]
  b : F[X]
  c : F[X]

/-- The values that the first message puts on the wires. -/
noncomputable def Sent1.wires (s : Sent1 F) (c : Circuit F) (ω : F) : c.Wire → F
  | (.a, i) => s.a.eval (ω ^ i.1)
  | (.b, i) => s.b.eval (ω ^ i.1)
  | (.c, i) => s.c.eval (ω ^ i.1)

/-- Before the challenge `α`. -/
structure Sent2 (F : Type) [Field F] extends Sent1 F where
  β : F
  γ : F
  z : F[X]

/-- Before the challenge `ξ`. -/
structure Sent3 (F : Type) [Field F] extends Sent2 F where
  α : F
  t1 : F[X]
  t2 : F[X]
  t3 : F[X]

/-- Before the challenge `v`. -/
structure Sent4 (F : Type) [Field F] extends Sent3 F where
  ξ : F
  evals : Evals F

/-- All messages. -/
structure Sent5 (F : Type) [Field F] extends Sent4 F where
  v : F
  w : F[X]
  ww : F[X]

/-- The polynomials have degree at most `d`. -/
def Sent3.Below (s : Sent3 F) (d : Nat) : Prop := ∀ p ∈ [s.a, s.b, s.c, s.z, s.t1, s.t2, s.t3], p.natDegree ≤ d

/-- The polynomials have degree at most `d`. -/
def Sent5.Below (s : Sent5 F) (d : Nat) : Prop := s.toSent3.Below d ∧ s.w.natDegree ≤ d ∧ s.ww.natDegree ≤ d

/-- The proof: the commitments to the polynomials, and the claimed evaluations. -/
def Sent5.proof [AddCommGroup G] [Module F G] (s : Sent5 F) (τ : F) (g₁ : G) : Proof F G :=
  ⟨s.a.eval τ • g₁, s.b.eval τ • g₁, s.c.eval τ • g₁, s.z.eval τ • g₁, s.t1.eval τ • g₁, s.t2.eval τ • g₁, s.t3.eval τ • g₁,
    s.w.eval τ • g₁, s.ww.eval τ • g₁, s.evals.a, s.evals.b, s.evals.c, s.evals.s1, s.evals.s2, s.evals.zw⟩

/-- The challenges are the hashes of what was sent. -/
structure Sent5.Hashed (s : Sent5 F) (hash : List (F ⊕ G) → F) (vk : Vk F G H) (proof : Proof F G) (pub : List F) : Prop where
  β : s.β = hash ([.inr vk.qm, .inr vk.ql, .inr vk.qr, .inr vk.qo, .inr vk.qc, .inr vk.s1, .inr vk.s2, .inr vk.s3]
    ++ pub.map .inl ++ [.inr proof.a, .inr proof.b, .inr proof.c])
  γ : s.γ = hash [.inl s.β]
  α : s.α = hash [.inl s.β, .inl s.γ, .inr proof.z]
  ξ : s.ξ = hash [.inl s.α, .inr proof.t1, .inr proof.t2, .inr proof.t3]
  v : s.v = hash [.inl s.ξ, .inl proof.evalA, .inl proof.evalB, .inl proof.evalC, .inl proof.evalS1, .inl proof.evalS2,
    .inl proof.evalZw]

/-! ## Lucky challenges -/

/-- For each challenge a small set of values that depends on what was sent before.  `n` is the number of gates and `d` bounds the
degrees.  The secret of the setup counts as the last challenge: the prover's polynomials do not depend on it. -/
structure Lucky (F : Type) [Field F] (n d : Nat) where
  β : Sent1 F → Finset F
  γ : Sent1 F → F → Finset F
  α : Sent2 F → Finset F
  ξ : Sent3 F → Finset F
  v : Sent4 F → Finset F
  u : Sent5 F → Finset F
  τ : Sent5 F → F → Finset F
  β_card : ∀ s, (β s).card ≤ 9 * n ^ 2
  γ_card : ∀ s β, (γ s β).card ≤ 3 * n
  α_card : ∀ s, (α s).card ≤ 2 * n
  ξ_card : ∀ s, s.Below d → (ξ s).card ≤ 4 * d + 3 * n
  v_card : ∀ s, (v s).card ≤ 5
  u_card : ∀ s, (u s).card ≤ 2
  τ_card : ∀ s u, s.Below d → (τ s u).card ≤ d + 1

/-- A challenge was lucky. -/
def Lucky.Hit {n d : Nat} (L : Lucky F n d) (s : Sent5 F) (u τ : F) : Prop :=
  s.β ∈ L.β s.toSent1 ∨ s.γ ∈ L.γ s.toSent1 s.β ∨ s.α ∈ L.α s.toSent2 ∨ s.ξ ∈ L.ξ s.toSent3 ∨ s.v ∈ L.v s.toSent4 ∨ u ∈ L.u s ∨
    τ ∈ L.τ s u

end Verif.Plonk
