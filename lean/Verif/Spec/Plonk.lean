import Verif.Plonk.Model
import Verif.Spec.Poly
import Verif.Spec.Groth16
import Mathlib.Logic.Equiv.Defs

/-!
# Specification: PLONK circuits, keys and assignments

Read this file to understand the property statements about the PLONK prover.  A circuit has `domainSize` gates.  Gate `i` has
three wires, and each wire carries a signal: `mapA`, `mapB` and `mapC` list the signals.  Signal `0` is the constant `0`, then
come the public inputs, then the private witness, and then the signals that `additions` define as linear combinations of
earlier signals.
-/

namespace Verif.Plonk

variable {F G H : Type} [Field F]

/-! ## The circuit -/

/-- The three wires of a gate. -/
inductive Column where
  | a | b | c
  deriving DecidableEq

/-- The signal on a wire of gate `i`; gates behind the end of the map are empty and carry signal `0`. -/
def Zkey.signal (key : Zkey F G H) : Column → Nat → Nat
  | .a, i => key.mapA.getD i 0
  | .b, i => key.mapB.getD i 0
  | .c, i => key.mapC.getD i 0

/-- The values of all signals: zero, the public inputs, the witness, and the additions. -/
structure Zkey.IsAssignment (key : Zkey F G H) (inputs wit z : List F) : Prop where
  values : ∃ adds, adds.length = key.nAdditions ∧ z = 0 :: inputs ++ wit ++ adds
  additions : ∀ j x, key.additions[j]? = some x →
    z.getD (key.nVars - key.nAdditions + j) 0 = x.factor1 * z.getD x.id1 0 + x.factor2 * z.getD x.id2 0

/-- All gates hold: `qm a b + ql a + qr b + qo c + qc` is zero, or the public input for the first gates. -/
def Zkey.Satisfied (key : Zkey F G H) (w : F) (z : List F) : Prop :=
  ∀ i < key.domainSize,
    polyValue key.qm.coeffs (w ^ i) * z.getD (key.signal .a i) 0 * z.getD (key.signal .b i) 0
      + polyValue key.ql.coeffs (w ^ i) * z.getD (key.signal .a i) 0
      + polyValue key.qr.coeffs (w ^ i) * z.getD (key.signal .b i) 0
      + polyValue key.qo.coeffs (w ^ i) * z.getD (key.signal .c i) 0
      + polyValue key.qc.coeffs (w ^ i) = if i < key.nPublic then z.getD (i + 1) 0 else 0

/-! ## Keys -/

/-- A polynomial of degree below `n` with its values on the powers of `w4`, of which there are `4 n`. -/
structure Poly.Valid (n : Nat) (w4 : F) (p : Poly F) : Prop where
  length : p.coeffs.length ≤ n
  evals : p.evals = (List.range (n * 4)).map fun i => polyValue p.coeffs (w4 ^ i)

/-- The point that names a wire of gate `i` in the permutation. -/
def Zkey.label (key : Zkey F G H) (w : F) : Column → Nat → F
  | .a, i => w ^ i
  | .b, i => key.vk.k1 * w ^ i
  | .c, i => key.vk.k2 * w ^ i

/-- The permutation polynomial of a wire. -/
def Zkey.sigma (key : Zkey F G H) : Column → Poly F
  | .a => key.s1
  | .b => key.s2
  | .c => key.s3

/-- The numbers in the key fit together: the domain is a power of two, not smaller than 8, there is a public input, the first
gates take the public inputs, every wire carries an existing signal, and additions refer to earlier signals. -/
structure Zkey.WellFormed (key : Zkey F G H) : Prop where
  size : key.domainSize = 2 ^ key.pow
  large : 3 ≤ key.pow
  vkPower : key.vk.power = key.pow
  vkPublic : key.vk.nPublic = key.nPublic
  hasPublic : 1 ≤ key.nPublic
  vars : key.nPublic + 1 + key.nAdditions ≤ key.nVars
  lengthA : key.mapA.length ≤ key.domainSize
  lengthB : key.mapB.length ≤ key.domainSize
  lengthC : key.mapC.length ≤ key.domainSize
  publicA : ∀ i < key.nPublic, key.mapA[i]? = some (i + 1)
  mapA : ∀ s ∈ key.mapA, s < key.nVars
  mapB : ∀ s ∈ key.mapB, s < key.nVars
  mapC : ∀ s ∈ key.mapC, s < key.nVars
  additions : key.additions.length = key.nAdditions
  earlier : ∀ j x, key.additions[j]? = some x →
    x.id1 < key.nVars - key.nAdditions + j ∧ x.id2 < key.nVars - key.nAdditions + j

/-- The polynomials of the key: `w4` generates the extended domain and `w` the domain.  The Lagrange polynomial `j` is one at
gate `j` and zero at the other gates.  The permutation polynomials describe a permutation of the wires that relates wires with
the same signal. -/
structure Zkey.PolysValid (key : Zkey F G H) (w w4 : F) : Prop where
  qm : key.qm.Valid key.domainSize w4
  ql : key.ql.Valid key.domainSize w4
  qr : key.qr.Valid key.domainSize w4
  qo : key.qo.Valid key.domainSize w4
  qc : key.qc.Valid key.domainSize w4
  sigma : ∀ x, (key.sigma x).Valid key.domainSize w4
  lagrange : key.lagrange.length = key.nPublic
  lagrangePoly : ∀ j l, key.lagrange[j]? = some l → l.Valid key.domainSize w4 ∧
    ∀ i < key.domainSize, polyValue l.coeffs (w ^ i) = if i = j then 1 else 0
  permutation : ∃ σ : Equiv.Perm (Column × Fin key.domainSize), ∀ x,
    polyValue (key.sigma x.1).coeffs (w ^ x.2.1) = key.label w (σ x).1 (σ x).2.1 ∧
    key.signal (σ x).1 (σ x).2.1 = key.signal x.1 x.2.1

/-- The key comes from a setup with the secret `τ`: the powers of `τ`, and the commitments in the verification key. -/
structure Zkey.SetupValid [AddCommGroup G] [Module F G] [AddCommGroup H] [Module F H] (key : Zkey F G H) (τ : F) (g₁ : G)
    (g₂ : H) : Prop where
  length : key.domainSize + 6 ≤ key.pTau.length
  powers : ∀ i P, key.pTau[i]? = some P → P = τ ^ i • g₁
  qm : key.vk.qm = polyValue key.qm.coeffs τ • g₁
  ql : key.vk.ql = polyValue key.ql.coeffs τ • g₁
  qr : key.vk.qr = polyValue key.qr.coeffs τ • g₁
  qo : key.vk.qo = polyValue key.qo.coeffs τ • g₁
  qc : key.vk.qc = polyValue key.qc.coeffs τ • g₁
  s1 : key.vk.s1 = polyValue key.s1.coeffs τ • g₁
  s2 : key.vk.s2 = polyValue key.s2.coeffs τ • g₁
  s3 : key.vk.s3 = polyValue key.s3.coeffs τ • g₁
  x2 : key.vk.x2 = τ • g₂

/-- The inputs have the lengths that the key asks for. -/
structure Zkey.Fits (key : Zkey F G H) (inputs wit : List F) : Prop where
  inputs : inputs.length = key.nPublic
  witness : wit.length + key.nPublic + 1 + key.nAdditions = key.nVars

/-- What the prover puts into the hash function, apart from earlier challenges: the first list, the commitment that follows the
challenges `β` and `γ`, and the three commitments that follow `α`. -/
structure Queries (F G : Type) where
  first : List (F ⊕ G)
  z : F → F → G
  t : F → F → F → G × G × G

/-- The challenges that follow are exceptional: a factor of the permutation argument vanishes, or the point of evaluation is zero or
in the domain.  Of the values that a challenge can take at most `3 n`, and `n + 1`, are exceptional. -/
def Queries.Exceptional (q : Queries F G) (key : Zkey F G H) (w : F) (z : List F) (hash : List (F ⊕ G) → F) : Prop :=
  let β := hash q.first
  let γ := hash [.inl β]
  let α := hash [.inl β, .inl γ, .inr (q.z β γ)]
  let t := q.t β γ α
  let ξ := hash [.inl α, .inr t.1, .inr t.2.1, .inr t.2.2]
  (∃ x, ∃ i < key.domainSize, z.getD (key.signal x i) 0 + β * key.label w x i + γ = 0) ∨ ξ = 0 ∨ ξ ^ key.domainSize = 1

/-! ## Statements -/

/-- A true statement with its key: the parameters of the field are right, `w` and `w4` are the generators of the domain and of the
extended domain that the code finds, the key is a key for them, and `z` are the values of all signals for the public inputs
`inputs` and the witness `wit`, and they satisfy the circuit. -/
structure Statement {p : Nat} [Fact p.Prime] [AddCommGroup G] [Module (ZMod p) G] [AddCommGroup H] [Module (ZMod p) H]
    (pr : Groth16.FftParams (ZMod p)) (key : Zkey (ZMod p) G H) (w w4 τ : ZMod p) (g₁ : G) (g₂ : H)
    (inputs wit z : List (ZMod p)) : Prop where
  valid : pr.Valid
  roots : ∃ q roots, Groth16.rootsOfUnity pr = some (q, roots) ∧ roots[key.pow]? = some w ∧ roots[key.pow + 2]? = some w4
  wf : key.WellFormed
  polys : key.PolysValid w w4
  setup : key.SetupValid τ g₁ g₂
  fits : key.Fits inputs wit
  assignment : key.IsAssignment inputs wit z
  satisfied : key.Satisfied w z

end Verif.Plonk
