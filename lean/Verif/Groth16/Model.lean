import Verif.Groth16.Fft
import Verif.Net.Two
import Verif.Rep3.Point
import Verif.Shamir.Arith
import Verif.Bridge.Rep3ToShamir

/-!
# Model: the collaborative Groth16 prover

Models `/repo/co-circom/co-groth16/src/groth16.rs`, `/repo/co-circom/co-groth16/src/groth16/reduction.rs` and the drivers
in `/repo/co-circom/co-groth16/src/mpc/`.  The curve groups `G₁`, `G₂` are arbitrary modules over the scalar field: the
group laws and the multi-scalar multiplication of the library are assumed, affine and projective coordinates are not
distinguished.  The two bodies of the `rayon::join` calls touch disjoint data (only one of them uses the state), so they
are modelled one after the other.  In all three drivers a half share of a field element is a field element and a half
share of a point is a point.
-/

namespace Verif.Groth16

open MPC (bail panicWith)

/-- A result that is missing because the code panicked. -/
def orPanic {ι S M α : Type} (x : Option α) : MPC ι S M Err α :=
  match x with
  | some x => pure x
  | none => panicWith "index out of bounds"

/-- The fields of `ConstraintMatrices` that are used.  A row is a list of coefficients and variables. -/
structure Matrices (F : Type) where
  numInstance : Nat
  numWitness : Nat
  numConstraints : Nat
  a : List (List (F × Nat))
  b : List (List (F × Nat))
  c : List (List (F × Nat))

/-- `ark_groth16::ProvingKey` with its verification key. -/
structure ProvingKey (G₁ G₂ : Type) where
  alphaG1 : G₁
  betaG2 : G₂
  gammaG2 : G₂
  deltaG2 : G₂
  gammaAbcG1 : List G₁
  betaG1 : G₁
  deltaG1 : G₁
  aQuery : List G₁
  bG1Query : List G₁
  bG2Query : List G₂
  hQuery : List G₁
  lQuery : List G₁

/-- `ark_groth16::Proof` -/
structure Proof (G₁ G₂ : Type) where
  a : G₁
  b : G₂
  c : G₁

/-- What the code uses of the traits `PrimeField` and `FftField`; `domainGen k` is the generator of `Domain::new` for
domains of size `2 ^ k`. -/
structure FftParams (F : Type) where
  modulus : Nat
  twoAdicity : Nat
  trace : Nat
  generator : F
  domainGen : Nat → F

section Roots

variable {F : Type} [Field F] [DecidableEq F]

/-- `x.legendre() == QuadraticNonResidue`, which arkworks decides with Euler's criterion. -/
def isNonresidue (pr : FftParams F) (x : F) : Bool :=
  x ^ ((pr.modulus - 1) / 2) ≠ 0 ∧ x ^ ((pr.modulus - 1) / 2) ≠ 1

/-- The `while` loop of `/repo/co-circom/co-groth16/src/groth16.rs:63-65`; `none` if it has not ended after `n` steps. -/
def findNonresidue (pr : FftParams F) : Nat → F → Option F
  | 0, _ => none
  | n + 1, q => if isNonresidue pr q then some q else findNonresidue pr n (q + 1)

/-- The loop of `/repo/co-circom/co-groth16/src/groth16.rs:67-70`: `z, z², z⁴, …` -/
def squares (z : F) : Nat → List F
  | 0 => [z]
  | n + 1 => z :: squares (z ^ 2) n

/-- `/repo/co-circom/co-groth16/src/groth16.rs:60-73`; `none` if the loop does not end. -/
def rootsOfUnity (pr : FftParams F) : Option (F × List F) := do
  let q ← findNonresidue pr pr.modulus 1
  some (q, (squares (q ^ pr.trace) pr.twoAdicity).reverse)

/-- `/repo/co-circom/co-groth16/src/groth16.rs:91-100`; `none` for a panic. -/
def groth16RootsOfUnity (pr : FftParams F) (pow : Nat) : Option (F × F) := do
  let (q, roots) ← rootsOfUnity pr
  let gen ← roots[pow]?
  let shift ← if pr.twoAdicity = pow then some (q ^ 2) else roots[pow + 1]?
  some (gen, shift)

/-- `/repo/co-circom/co-groth16/src/groth16/reduction.rs:45-60`; the chunks of the parallel loop are independent. -/
def cosetTable (shift : F) (size : Nat) : List F :=
  bitReverse ((List.range size).map fun i => shift ^ i)

end Roots

/-- `zip_eq` panics if the lengths differ. -/
def zipEq {α β γ : Type} (f : α → β → γ) (a : List α) (b : List β) : Option (List γ) :=
  if a.length = b.length then some (List.zipWith f a b) else none

/-- The trait `CircomGroth16Prover`. `/repo/co-circom/co-groth16/src/mpc.rs:22-138`.  `A` are the shares; the functions that are
generic over the curve appear once for each of the two groups.  `none` stands for a panic. -/
structure Driver (ι S M F A G₁ G₂ : Type) where
  rand : MPC ι S M Err A
  evaluateConstraint : ι → List (F × Nat) → List F → List A → Option A
  evaluateConstraintHalf : ι → List (F × Nat) → List F → List A → Option F
  promote : ι → List F → List A
  localMulVec : List A → List A → MPC ι S M Err (List F)
  distribute : List A → List F → Option (List A)
  addPublicG1 : ι → G₁ → G₁ → G₁
  addPublicG2 : ι → G₂ → G₂ → G₂
  toHalf : A → F
  openHalfG1 : G₁ → MPC ι S M Err G₁
  openHalfG2 : G₂ → MPC ι S M Err G₂
  scalarMul : G₁ → A → MPC ι S M Err G₁

section Reduction

variable {ι S M F A G₁ G₂ : Type} [Field F] [DecidableEq F] [Zero A] [Add A] [SMul F A]

/-- `Vec::resize(size, 0)` -/
def resize {α : Type} [Zero α] (size : Nat) (l : List α) : List α :=
  (l ++ List.replicate (size - l.length) 0).take size

/-- `a[from..from + n].clone_from_slice(&b[..n])` -/
def writeSlice {α : Type} (a : List α) (pos n : Nat) (b : List α) : Option (List α) :=
  if pos + n ≤ a.length ∧ n ≤ b.length then some (a.take pos ++ b.take n ++ a.drop (pos + n)) else none

/-- `/repo/co-circom/co-groth16/src/groth16/reduction.rs:196-210` -/
def evaluateRows (d : Driver ι S M F A G₁ G₂) (id : ι) (size : Nat) (matrix : List (List (F × Nat)))
    (pub : List F) (wit : List A) : Option (List A) := do
  let rows ← matrix.mapM fun row => d.evaluateConstraint id row pub wit
  some (resize size rows)

/-- `/repo/co-circom/co-groth16/src/groth16/reduction.rs:212-226` -/
def evaluateRowsHalf (d : Driver ι S M F A G₁ G₂) (id : ι) (size : Nat) (matrix : List (List (F × Nat)))
    (pub : List F) (wit : List A) : Option (List F) := do
  let rows ← matrix.mapM fun row => d.evaluateConstraintHalf id row pub wit
  some (resize size rows)

/-- The values of `A` on the domain: the rows and, after them, the public inputs.
`/repo/co-circom/co-groth16/src/groth16/reduction.rs:104-115`, `260-269` -/
def evaluateA (d : Driver ι S M F A G₁ G₂) (id : ι) (size : Nat) (m : Matrices F)
    (pub : List F) (wit : List A) : Option (List A) := do
  let rows ← evaluateRows d id size m.a pub wit
  writeSlice rows m.numConstraints m.numInstance (d.promote id pub)

/-- From the values on the domain to the values on the coset, for shares.
`/repo/co-circom/co-groth16/src/groth16/reduction.rs:141-143`, `150-152`, `270-272`, `283-285` -/
def toCoset (d : Driver ι S M F A G₁ G₂) (gen : F) (table : List F) (l : List A) : Option (List A) := do
  let l ← d.distribute (ifftInToOut gen l) table
  some (fftOutToIn gen l)

/-- The same for half shares. `/repo/co-circom/co-groth16/src/groth16/reduction.rs:163-174`, `299-306` -/
def toCosetHalf (gen : F) (table : List F) (l : List F) : Option (List F) := do
  let l ← zipEq (· * ·) (ifftInToOut gen l) table
  some (fftOutToIn gen l)

/-- `usize::next_power_of_two` -/
def nextPowerOfTwo (n : Nat) : Nat := 2 ^ Nat.clog 2 n

/-- `/repo/co-circom/co-groth16/src/groth16/reduction.rs:75-194` (`CircomReduction`).  `Domain::with_group_gen` is assumed
to accept the generator. -/
def circomWitnessMap (pr : FftParams F) (d : Driver ι S M F A G₁ G₂) (m : Matrices F) (pub : List F)
    (wit : List A) : MPC ι S M Err (List F) := do
  let size := nextPowerOfTwo (m.numConstraints + m.numInstance)
  let power := Nat.log2 size
  if pr.twoAdicity < power then bail "Polynomial Degree too large"
  else
    let (gen, shift) ← orPanic (groth16RootsOfUnity pr power)
    let id ← MPC.netId
    let table := cosetTable shift size
    let a ← orPanic (evaluateA d id size m pub wit)
    let b ← orPanic (evaluateRows d id size m.b pub wit)
    let a' ← orPanic (toCoset d gen table a)
    let b' ← orPanic (toCoset d gen table b)
    let c ← d.localMulVec a b
    let c' ← orPanic (toCosetHalf gen table c)
    let ab ← d.localMulVec a' b'
    orPanic (zipEq (· - ·) ab c')

/-- `inverse().unwrap()` -/
def invOrPanic (x : F) : Option F := if x = 0 then none else some x⁻¹

/-- `/repo/co-circom/co-groth16/src/groth16/reduction.rs:239-343` (`LibSnarkReduction`) -/
def libsnarkWitnessMap (pr : FftParams F) (d : Driver ι S M F A G₁ G₂) (m : Matrices F) (pub : List F)
    (wit : List A) : MPC ι S M Err (List F) := do
  let size := nextPowerOfTwo (m.numConstraints + m.numInstance)
  let power := Nat.log2 size
  if pr.twoAdicity < power then bail "Polynomial Degree too large"
  else
    let gen := pr.domainGen power
    let id ← MPC.netId
    let table := cosetTable pr.generator size
    let a ← orPanic (evaluateA d id size m pub wit)
    let a' ← orPanic (toCoset d gen table a)
    let b ← orPanic (evaluateRows d id size m.b pub wit)
    let b' ← orPanic (toCoset d gen table b)
    let ab ← d.localMulVec a' b'
    let c ← orPanic (evaluateRowsHalf d id size m.c pub wit)
    let c' ← orPanic (toCosetHalf gen table c)
    let v ← orPanic (invOrPanic (pr.generator ^ size - 1))
    let h := List.zipWith (fun x y => (x - y) * v) ab c' ++ ab.drop c'.length
    let h := bitReverse (ifftInToOut gen h)
    let shiftInv ← orPanic (invOrPanic pr.generator)
    pure (h.zipIdx.map fun (x, i) => x * shiftInv ^ i)

end Reduction

section Prove

variable {ι S M J F A G₁ G₂ : Type} [Field F] [AddCommGroup G₁] [Module F G₁] [AddCommGroup G₂] [Module F G₂]

/-- `add` adds a public point to a half share. `/repo/co-circom/co-groth16/src/groth16.rs:179-204` -/
def calculateCoeff {V : Type} [AddCommGroup V] [Module F V] (add : V → V → V) (initial : V) (query : List V)
    (vkParam : V) (input aux : List F) : Option V := do
  let q ← query[0]?
  if query.length < 1 + input.length then none
  else
    let privAcc := Rep3.Point.msm (query.drop (1 + input.length)) aux
    let pubAcc := Rep3.Point.msm ((query.drop 1).take input.length) input
    some (add (add (add initial q) vkParam) pubAcc + privAcc)

/-- `v[1..]` -/
def tailOrPanic {α : Type} : List α → Option (List α)
  | [] => none
  | _ :: l => some l

/-- `/repo/co-circom/co-groth16/src/groth16.rs:207-338` -/
def createProof [Codec J G₁] [Codec J G₂] (d : Driver ι S M F A G₁ G₂) (pk : ProvingKey G₁ G₂) (r s : A)
    (h : List F) (pub : List F) (aux : List F) : MPC₂ ι S M J (Proof G₁ G₂) := do
  let id ← MPC₂.first MPC.netId
  let input ← MPC₂.first (orPanic (tailOrPanic pub))
  let gA ← MPC₂.first (orPanic
    (calculateCoeff (d.addPublicG1 id) (d.toHalf r • pk.deltaG1) pk.aQuery pk.alphaG1 input aux))
  let g1B ← MPC₂.first (orPanic
    (calculateCoeff (d.addPublicG1 id) (d.toHalf s • pk.deltaG1) pk.bG1Query pk.betaG1 input aux))
  let g2B ← MPC₂.first (orPanic
    (calculateCoeff (d.addPublicG2 id) (d.toHalf s • pk.deltaG2) pk.bG2Query pk.betaG2 input aux))
  let lAcc := Rep3.Point.msm pk.lQuery aux
  let hAcc := Rep3.Point.msm pk.hQuery h
  let rs ← MPC₂.first (d.localMulVec [r] [s])
  let rs ← MPC₂.first (orPanic rs.getLast?)
  let rsDelta := rs • pk.deltaG1
  let (gAOpened, rB) ← MPC₂.join (d.openHalfG1 gA) (d.scalarMul g1B r)
  let gC := d.toHalf s • gAOpened + rB - rsDelta + lAcc + hAcc
  let (gCOpened, g2BOpened) ← MPC₂.join (d.openHalfG1 gC) (d.openHalfG2 g2B)
  pure ⟨gAOpened, g2BOpened, gCOpened⟩

/-- `witnessMap` is the function of the chosen reduction. `/repo/co-circom/co-groth16/src/groth16.rs:125-177` -/
def proveInner [Codec J G₁] [Codec J G₂] (witnessMap : Matrices F → List F → List A → MPC ι S M Err (List F))
    (d : Driver ι S M F A G₁ G₂) (pk : ProvingKey G₁ G₂) (m : Matrices F) (pub : List F) (wit : List A) :
    MPC₂ ι S M J (Proof G₁ G₂) :=
  if pub.length ≠ m.numInstance then
    MPC₂.bail "amount of public inputs does not match with provided constraint system!"
  else if wit.length ≠ m.numWitness then
    MPC₂.bail "amount of private witness variables does not match with provided constraint system!"
  else do
    let h ← MPC₂.first (witnessMap m pub wit)
    let r ← MPC₂.first d.rand
    let s ← MPC₂.first d.rand
    createProof d pk r s h pub (wit.map d.toHalf)

end Prove

/-! ## The three drivers -/

section Plain

variable {R M F G₁ G₂ : Type} [Field F] [AddCommGroup G₁] [Module F G₁] [AddCommGroup G₂] [Module F G₂]

/-- `/repo/co-circom/co-groth16/src/mpc/plain.rs:28-43`, `45-60` -/
def plainEvaluate (row : List (F × Nat)) (pub wit : List F) : Option F :=
  row.foldlM (init := 0) fun acc (coeff, index) =>
    if index < pub.length then do some (acc + coeff * (← pub[index]?))
    else do some (acc + coeff * (← wit[index - pub.length]?))

/-- The randomness comes from the generator of the thread, here the state.
`/repo/co-circom/co-groth16/src/mpc/plain.rs:14-134` -/
def plainDriver [Sample R F] : Driver Unit R M F F G₁ G₂ where
  rand := MPC.modifyGet fun g => Sample.sample g
  evaluateConstraint _ := plainEvaluate
  evaluateConstraintHalf _ := plainEvaluate
  promote _ vs := vs
  localMulVec a b := pure (List.zipWith (· * ·) a b)
  distribute a b := some (List.zipWith (· * ·) a b ++ a.drop b.length)
  addPublicG1 _ a b := a + b
  addPublicG2 _ a b := a + b
  toHalf a := a
  openHalfG1 a := pure a
  openHalfG2 a := pure a
  scalarMul a b := pure (b • a)

end Plain

section Rep3

open PartyID

variable {R M F G₁ G₂ : Type} [Field F] [AddCommGroup G₁] [Module F G₁] [AddCommGroup G₂] [Module F G₂]

/-- Shares as vectors over the field, for the Fourier transform: `Rep3PrimeFieldShare::zero()`,
`/repo/mpc-core/src/protocols/rep3/arithmetic/types.rs:43-48` -/
instance : Zero (Share F) := ⟨Share.zeroShare⟩

/-- `/repo/mpc-core/src/protocols/rep3/arithmetic/ops.rs:78-98` -/
instance : SMul F (Share F) := ⟨fun c x => x.scale c⟩

/-- `/repo/co-circom/co-groth16/src/mpc/rep3.rs:31-49` -/
def rep3Evaluate (id : PartyID) (row : List (F × Nat)) (pub : List F) (wit : List (Share F)) :
    Option (Share F) :=
  row.foldlM (init := Share.zeroShare) fun acc (coeff, index) =>
    if index < pub.length then do some (Rep3.addPublic acc ((← pub[index]?) * coeff) id)
    else do some (acc + (← wit[index - pub.length]?).scale coeff)

/-- `/repo/co-circom/co-groth16/src/mpc/rep3.rs:51-74` -/
def rep3EvaluateHalf (id : PartyID) (row : List (F × Nat)) (pub : List F) (wit : List (Share F)) :
    Option F :=
  row.foldlM (init := 0) fun acc (coeff, index) =>
    if index < pub.length then do
      let v ← pub[index]?
      match id with
      | ID0 => some (acc + v * coeff)
      | ID1 => some acc
      | ID2 => some acc
    else do some (acc + (← wit[index - pub.length]?).a * coeff)

/-- `/repo/co-circom/co-groth16/src/mpc/rep3.rs:108-118` -/
def rep3AddPublic {V : Type} [Add V] (id : PartyID) (a b : V) : V :=
  match id with
  | ID0 => a + b
  | ID1 => a
  | ID2 => a

/-- `/repo/co-circom/co-groth16/src/mpc/rep3.rs:18-162` -/
def rep3Driver [Sample R F] [SampleVec R F] [Sample R G₁] [Codec M (List G₁)] [Codec M (List G₂)] :
    Driver PartyID (Rep3State R) M F (Share F) G₁ G₂ where
  rand := Rep3.rand
  evaluateConstraint := rep3Evaluate
  evaluateConstraintHalf := rep3EvaluateHalf
  promote id vs := vs.map fun v => Share.promoteFromTrivial v id
  localMulVec := Rep3.localMulVec
  distribute := zipEq Share.scale
  addPublicG1 := rep3AddPublic
  addPublicG2 := rep3AddPublic
  toHalf a := a.a
  openHalfG1 := Rep3.Point.openHalfPoint
  openHalfG2 := Rep3.Point.openHalfPoint
  scalarMul a b := do
    let ah ← Rep3.reshare a
    Rep3.Point.scalarMulLocal ⟨a, ah⟩ b

end Rep3

section Shamir

variable {n : Nat} {R M F G₁ G₂ : Type} [Field F] [AddCommGroup G₁] [Module F G₁] [AddCommGroup G₂] [Module F G₂]

/-- `/repo/co-circom/co-groth16/src/mpc/shamir.rs:29-47`, `49-68` (both loops compute the same) -/
def shamirEvaluate (row : List (F × Nat)) (pub wit : List F) : Option F :=
  row.foldlM (init := 0) fun acc (coeff, index) =>
    if index < pub.length then do some (Shamir.addPublic acc ((← pub[index]?) * coeff))
    else do some (Shamir.add acc (Shamir.mulPublic (← wit[index - pub.length]?) coeff))

/-- `gen` is the generator of the first group.  `/repo/co-circom/co-groth16/src/mpc/shamir.rs:16-148` -/
def shamirDriver [Sample R F] [Codec M (List F)] [Codec M G₁] [Codec M G₂] [Codec M (List G₁)] (gen : G₁) :
    Driver (Fin n) (Shamir.ShamirState n R F) M F F G₁ G₂ where
  rand := Shamir.rand
  evaluateConstraint _ := shamirEvaluate
  evaluateConstraintHalf _ := shamirEvaluate
  promote _ vs := vs.map Shamir.promote
  localMulVec a b := orPanic (Shamir.localMulVec a b)
  distribute := zipEq (Shamir.mulPublic (V := F))
  addPublicG1 _ a b := a + b
  addPublicG2 _ a b := a + b
  toHalf a := a
  openHalfG1 := Shamir.openHalf
  openHalfG2 := Shamir.openHalf
  scalarMul a b := do
    let a ← Shamir.degreeReducePoint gen a
    pure (Shamir.localMul a b)

/-- The shares of the witness are translated locally, then the Shamir prover runs with three parties.  The set-up of the
states is not repeated here. `/repo/co-circom/co-groth16/src/groth16.rs:394-420` -/
def proveWithShamirBridge {J : Type} [DecidableEq F] [Sample R F] [Codec M (List F)] [Codec M G₁] [Codec M G₂]
    [Codec M (List G₁)] [Codec J G₁] [Codec J G₂] (gen : G₁)
    (witnessMap : Matrices F → List F → List F → MPC (Fin 3) (Shamir.ShamirState 3 R F) M Err (List F))
    (pk : ProvingKey G₁ G₂) (m : Matrices F) (pub : List F) (wit : List (Share F)) :
    MPC₂ (Fin 3) (Shamir.ShamirState 3 R F) M J (Proof G₁ G₂) := do
  let id ← MPC₂.first MPC.netId
  let translated ← MPC₂.first (orPanic (Bridge.translateRepshareVec F wit (Bridge.party3 id)))
  proveInner witnessMap (shamirDriver gen) pk m pub translated

end Shamir

end Verif.Groth16
