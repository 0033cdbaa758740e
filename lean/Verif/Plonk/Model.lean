import Verif.Groth16.Model
import Verif.Net.Many

/-!
# Model: the collaborative PLONK prover and the verifier

Models `/repo/co-circom/co-plonk/src/{lib,types,round1,round2,round3,round4,round5,plonk}.rs` for any driver.

Simplifications.  The curve group `G` of the commitments is an arbitrary module over the scalar field; affine and projective
coordinates are not distinguished.  The transcript is a function `hash` from the list of scalars and points that were added to
it to the challenge: `Keccak256Transcript` is not modelled.  The Fourier transforms of `ark-poly` are modelled by what they
compute (`Groth16/Fft.lean`).  Local code that is spread over threads with `rayon` is run sequentially.  Loops that push values
to several vectors at once are written as one map for each vector.  `debug_assert!`s are dropped, `usize` values are unbounded
and differences of `usize` values are truncated at zero.  A check that a vector is long enough stands at the start of the
function that indexes it: where the code panics in the middle of a loop, the model panics before the loop.
-/

namespace Verif.Plonk

open Groth16 (FftParams fft ifft resize)

/-! ### Keys, proofs, domains -/

/-- `circom_types::plonk::CircomPolynomial`: coefficients and the values on the extended domain. -/
structure Poly (F : Type) where
  coeffs : List F
  evals : List F

/-- `circom_types::plonk::Additions` -/
structure Addition (F : Type) where
  id1 : Nat
  id2 : Nat
  factor1 : F
  factor2 : F

/-- `circom_types::plonk::{VerificationKey, JsonVerificationKey}`, the fields that are used.  `x2` is in the second group. -/
structure Vk (F G H : Type) where
  nPublic : Nat
  power : Nat
  k1 : F
  k2 : F
  qm : G
  ql : G
  qr : G
  qo : G
  qc : G
  s1 : G
  s2 : G
  s3 : G
  x2 : H

/-- `circom_types::plonk::Zkey`, the fields that are used. -/
structure Zkey (F G H : Type) where
  vk : Vk F G H
  nPublic : Nat
  nVars : Nat
  nAdditions : Nat
  domainSize : Nat
  pow : Nat
  additions : List (Addition F)
  mapA : List Nat
  mapB : List Nat
  mapC : List Nat
  qm : Poly F
  ql : Poly F
  qr : Poly F
  qo : Poly F
  qc : Poly F
  s1 : Poly F
  s2 : Poly F
  s3 : Poly F
  lagrange : List (Poly F)
  pTau : List G

/-- `circom_types::plonk::PlonkProof` -/
structure Proof (F G : Type) where
  a : G
  b : G
  c : G
  z : G
  t1 : G
  t2 : G
  t3 : G
  wxi : G
  wxiw : G
  evalA : F
  evalB : F
  evalC : F
  evalS1 : F
  evalS2 : F
  evalZw : F
  deriving DecidableEq

/-- `/repo/co-circom/co-plonk/src/types.rs:36-46`: `root`, `root4` generate the domain and the extended domain, `i` is
`root_of_unity_2`. -/
structure Domains (F : Type) where
  size : Nat
  root : F
  root4 : F
  i : F

section Domain

variable {F : Type} [Field F] [DecidableEq F]

/-- `/repo/co-circom/co-plonk/src/types.rs:71-110`.  `Radix2EvaluationDomain::new` returns `None` if the logarithm of the size is
larger than the two-adicity of the field. -/
def Domains.new (pr : FftParams F) (n : Nat) : Except Err (Domains F) :=
  if n &&& (n - 1) ≠ 0 ∨ n = 0 then .error (.err "Invalid domain size. Must be power of 2")
  else if pr.twoAdicity < Nat.log2 n + 2 then .error (.err "Polynomial degree too large")
  else
    match Groth16.rootsOfUnity pr with
    | none => .error (.panic "unreachable: no quadratic nonresidue")
    | some (_, roots) =>
      match roots[Nat.log2 n]?, roots[Nat.log2 n + 2]?, roots[2]? with
      | some w, some w4, some i => .ok ⟨n, w, w4, i⟩
      | _, _, _ => .error (.panic "index out of bounds")

end Domain

/-! ### The driver -/

/-- The trait `CircomPlonkProver`, as one party sees it. `/repo/co-circom/co-plonk/src/mpc.rs:20-240`.  `m` is code that may use
all eight networks, `c` is code that uses one; `A` are the shares and `B` the shares of points.  `mul_with_public`, `add`, `sub`,
`neg` and the default share are the operations of `A`. -/
structure Driver (m c : Type → Type) (F A G B : Type) where
  addPub : A → F → A
  promote : F → A
  evalPoly : List A → F → A
  msm : List G → List A → B
  rand : c A
  mulVec : List A → List A → c (List A)
  addMulVec : List A → List A → List A → c (List A)
  arrayProdMul : Bool → List A → List A → List A → c (List A)
  openVec : List A → c (List F)
  openPoints : List B → c (List G)
  openPoint : B → c G
  /-- A call on the first network with the main state. -/
  first : {α : Type} → c α → m α
  /-- `let mut state_j = state.fork(n_j)?` for all closures, then one closure on each network, each with its own state, then `?`
  on the results. -/
  join : List (Nat × c (List A)) → m (List (List A))
  /-- Errors and panics. -/
  fail : {α : Type} → Err → m α

section Local

variable {F A G H : Type} [Field F] [DecidableEq F] [Zero A] [Add A] [Sub A] [Neg A] [SMul F A]

/-- The panic of an index that is too large. -/
def atLeast (n : Nat) {α : Type} (l : List α) : Except Err Unit :=
  if l.length < n then .error (.panic "index out of bounds") else .ok ()

/-- `l[index]` -/
def index {α : Type} (l : List α) (i : Nat) : Except Err α :=
  match l[i]? with
  | some x => .ok x
  | none => .error (.panic "index out of bounds")

/-- `for (x, y) in xs.iter_mut().zip(ys) { *x = f(x, y) }` -/
def zipInto {α β : Type} (f : α → β → α) : List α → List β → List α
  | x :: xs, y :: ys => f x y :: zipInto f xs ys
  | xs, [] => xs
  | [], _ => []

/-- `x[0] = f(x[0])` on a vector that is not empty. -/
def mapHead {α : Type} (f : α → α) : List α → List α
  | x :: xs => f x :: xs
  | [] => []

/-- `domain.fft`: the input is padded to the size of the domain. -/
def fftOn (w : F) (n : Nat) (l : List A) : List A := fft w (resize n l)

/-- `domain.ifft` -/
def ifftOn (w : F) (n : Nat) (l : List A) : List A := ifft w (resize n l)

/-! ### Round 1 -/

/-- `/repo/co-circom/co-plonk/src/lib.rs:138-159` -/
def getWitness (promote : F → A) (key : Zkey F G H) (pub : List F) (wit adds : List A) (i : Nat) : Except Err A :=
  if i ≤ key.nPublic then (index pub i).map promote
  else if i < key.nVars - key.nAdditions then index wit (i - key.nPublic - 1)
  else if i < key.nVars then index adds (i + key.nAdditions - key.nVars)
  else .error (.err "Cannot index into witness")

/-- `/repo/co-circom/co-plonk/src/round1.rs:204-223`; `adds` is the vector `addition_witness`. -/
def calculateAdditions (promote : F → A) (key : Zkey F G H) (pub : List F) (wit : List A) :
    List (Addition F) → List A → Except Err (List A)
  | [], adds => .ok adds
  | x :: xs, adds => do
    let w1 ← getWitness promote key pub wit adds x.id1
    let w2 ← getWitness promote key pub wit adds x.id2
    calculateAdditions promote key pub wit xs (adds ++ [x.factor1 • w1 + x.factor2 • w2])

/-- `/repo/co-circom/co-plonk/src/lib.rs:162-177` -/
def blindCoefficients (poly rev : List A) : List A := zipInto (· - ·) poly rev.reverse ++ rev.reverse

/-- One wire: `buffer`, and `PolyEval` with `poly` and `eval`. -/
structure Wire (A : Type) where
  buffer : List A
  poly : List A
  eval : List A

/-- The part of `compute_single_wire_poly` after the witness has been collected, and of `compute_z`.
`/repo/co-circom/co-plonk/src/round1.rs:122-134`, `/repo/co-circom/co-plonk/src/round2.rs:168-176` -/
def interpolate (dom : Domains F) (buffer blind : List A) : Wire A :=
  let poly := ifftOn dom.root dom.size buffer
  ⟨buffer, blindCoefficients poly blind, fftOn dom.root4 (dom.size * 4) poly⟩

/-- `/repo/co-circom/co-plonk/src/round1.rs:109-135` -/
def wirePoly (promote : F → A) (key : Zkey F G H) (dom : Domains F) (pub : List F) (wit adds : List A) (blind : List A)
    (map : List Nat) : Except Err (Wire A) := do
  let buffer ← map.mapM (getWitness promote key pub wit adds)
  pure (interpolate dom (resize key.domainSize buffer) blind)

/-- `Err(PlonkProofError::PolynomialDegreeTooLarge)` for a polynomial that is too long. -/
def maxLen (n : Nat) (l : List A) : Except Err Unit :=
  if n < l.length then .error (.err "Polynomial degree too large") else .ok ()

/-- `Round1Polys` -/
structure Wires (A : Type) where
  a : Wire A
  b : Wire A
  c : Wire A

/-- `/repo/co-circom/co-plonk/src/round1.rs:138-190` -/
def wirePolys (promote : F → A) (key : Zkey F G H) (dom : Domains F) (pub : List F) (wit adds b : List A) :
    Except Err (Wires A) := do
  let wa ← wirePoly promote key dom pub wit adds (b.take 2) key.mapA
  let wb ← wirePoly promote key dom pub wit adds ((b.drop 2).take 2) key.mapB
  let wc ← wirePoly promote key dom pub wit adds ((b.drop 4).take 2) key.mapC
  maxLen (key.domainSize + 2) wa.poly
  maxLen (key.domainSize + 2) wb.poly
  maxLen (key.domainSize + 2) wc.poly
  pure ⟨wa, wb, wc⟩

/-! ### Round 2 -/

/-- One of `n1`, `n2`, `n3`: `x + k·β·ωⁱ + γ`. `/repo/co-circom/co-plonk/src/round2.rs:117-134` -/
def numerators (addPub : A → F → A) (dom : Domains F) (β γ k : F) (buffer : List A) : List A :=
  (List.range dom.size).map fun i => addPub (addPub (buffer.getD i 0) (k * (β * dom.root ^ i))) γ

/-- One of `d1`, `d2`, `d3`: `x + β·σ(ωⁱ) + γ`. `/repo/co-circom/co-plonk/src/round2.rs:140-151` -/
def denominators (addPub : A → F → A) (dom : Domains F) (β γ : F) (s : Poly F) (buffer : List A) : List A :=
  (List.range dom.size).map fun i => addPub (addPub (buffer.getD i 0) (β * s.evals.getD (i * 4) 0)) γ

/-- `rotate_right(1)` -/
def rotateRight (l : List A) : List A := l.drop (l.length - 1) ++ l.take (l.length - 1)

/-! ### Round 3 -/

/-- `/repo/co-circom/co-plonk/src/round3.rs:212-218` -/
def z1 (dom : Domains F) : List F := [0, -1 + dom.i, -1 - 1, -1 - dom.i]

/-- `/repo/co-circom/co-plonk/src/round3.rs:220-233` -/
def z2 (dom : Domains F) : List F := [0, (0 - (1 + 1)) * dom.i, (1 + 1) ^ 2, 0 - (0 - (1 + 1)) * dom.i]

/-- `/repo/co-circom/co-plonk/src/round3.rs:235-242` -/
def z3 (dom : Domains F) : List F :=
  [0, 1 + 1 + (1 + 1) * dom.i, -((1 + 1) ^ 2 * (1 + 1)), 1 + 1 - (1 + 1) * dom.i]

/-- `ap`, `bp`, `cp`. `/repo/co-circom/co-plonk/src/round3.rs:271-276` -/
def blindLine (dom : Domains F) (b1 b0 : A) : List A :=
  (List.range (dom.size * 4)).map fun i => b1 + dom.root4 ^ i • b0

/-- `zp` for `s = 1` and `zwp` for `s = ω`. `/repo/co-circom/co-plonk/src/round3.rs:344-359` -/
def blindSquare (dom : Domains F) (s : F) (b8 b7 b6 : A) : List A :=
  (List.range (dom.size * 4)).map fun i =>
    b8 + ((dom.root4 ^ i * s) ^ 2 • b6 + (dom.root4 ^ i * s) • b7)

/-- `pi`. `/repo/co-circom/co-plonk/src/round3.rs:385-389` -/
def publicTerm (lagrange : List (Poly F)) (buffer : List A) (i : Nat) : A :=
  (List.range lagrange.length).foldl
    (fun acc j => acc - ((lagrange.map Poly.evals).getD j []).getD i 0 • buffer.getD j 0) 0

/-- `e1`. `/repo/co-circom/co-plonk/src/round3.rs:370-393` -/
def gateTerm (addPub : A → F → A) (key : Zkey F G H) (dom : Domains F) (ws : Wires A) (ab : List A) : List A :=
  (List.range (dom.size * 4)).map fun i =>
    addPub (key.qm.evals.getD i 0 • ab.getD i 0 + key.ql.evals.getD i 0 • ws.a.eval.getD i 0
      + key.qr.evals.getD i 0 • ws.b.eval.getD i 0 + key.qo.evals.getD i 0 • ws.c.eval.getD i 0
      + publicTerm key.lagrange ws.a.buffer i) (key.qc.evals.getD i 0)

/-- `a0`. `/repo/co-circom/co-plonk/src/round3.rs:361-368` -/
def blindProduct (dom : Domains F) (abp apb apbp : List A) (i : Nat) : A :=
  if i % 4 ≠ 0 then abp.getD i 0 + apb.getD i 0 + (z1 dom).getD (i % 4) 0 • apbp.getD i 0
  else abp.getD i 0 + apb.getD i 0

/-- `e1z`. `/repo/co-circom/co-plonk/src/round3.rs:370-383` -/
def gateBlind (key : Zkey F G H) (dom : Domains F) (abp apb apbp ap bp cp : List A) : List A :=
  (List.range (dom.size * 4)).map fun i =>
    key.qm.evals.getD i 0 • blindProduct dom abp apb apbp i + key.ql.evals.getD i 0 • ap.getD i 0
      + key.qr.evals.getD i 0 • bp.getD i 0 + key.qo.evals.getD i 0 • cp.getD i 0

/-- `e2a` (`k = 1`), `e2b`, `e2c`. `/repo/co-circom/co-plonk/src/round3.rs:395-406` -/
def idTerm (addPub : A → F → A) (dom : Domains F) (β γ k : F) (eval : List A) : List A :=
  (List.range (dom.size * 4)).map fun i => addPub (eval.getD i 0) (β * dom.root4 ^ i * k + γ)

/-- `e3a`, `e3b`, `e3c`. `/repo/co-circom/co-plonk/src/round3.rs:409-423` -/
def sigmaTerm (addPub : A → F → A) (dom : Domains F) (β γ : F) (s : Poly F) (eval : List A) : List A :=
  (List.range (dom.size * 4)).map fun i => addPub (eval.getD i 0) (s.evals.getD i 0 * β + γ)

/-- `e3d`: the values of `z` at `ω·x`. `/repo/co-circom/co-plonk/src/round3.rs:353` -/
def shifted (dom : Domains F) (eval : List A) : List A :=
  (List.range (dom.size * 4)).map fun i => eval.getD ((dom.size * 4 + 4 + i) % (dom.size * 4)) 0

/-- `mul4vec_post!`. `/repo/co-circom/co-plonk/src/round3.rs:86-104` -/
def mul4Post (dom : Domains F) (a b c d : List A) (i : Nat) : A :=
  if i % 4 ≠ 0 then
    (z1 dom).getD (i % 4) 0 • b.getD i 0 + a.getD i 0 + (z2 dom).getD (i % 4) 0 • c.getD i 0
      + (z3 dom).getD (i % 4) 0 • d.getD i 0
  else a.getD i 0

/-- The five results of `mul4vec!`. -/
structure Mul4 (A : Type) where
  r : List A
  a0 : List A
  a1 : List A
  a2 : List A
  a3 : List A

/-- `t_vec`. `/repo/co-circom/co-plonk/src/round3.rs:438-470` -/
def tVec (addPub : A → F → A) (key : Zkey F G H) (dom : Domains F) (α : F) (z e1 e2 e3 : List A) : List A :=
  (List.range (dom.size * 4)).map fun i =>
    e1.getD i 0 + α • e2.getD i 0 - α • e3.getD i 0
      + α ^ 2 • ((key.lagrange.map Poly.evals).getD 0 []).getD i 0 • addPub (z.getD i 0) (-1)

/-- `tz_vec`. `/repo/co-circom/co-plonk/src/round3.rs:438-470` -/
def tzVec (key : Zkey F G H) (dom : Domains F) (α : F) (zp e1z : List A) (e2 e3 : Mul4 A) : List A :=
  (List.range (dom.size * 4)).map fun i =>
    e1z.getD i 0 + α • mul4Post dom e2.a0 e2.a1 e2.a2 e2.a3 i - α • mul4Post dom e3.a0 e3.a1 e3.a2 e3.a3 i
      + α ^ 2 • ((key.lagrange.map Poly.evals).getD 0 []).getD i 0 • zp.getD i 0

/-- Division by `Xⁿ - 1`: the loop over `coefficients_t`; the first argument counts the remaining steps and `done` are the values
that were already replaced. `/repo/co-circom/co-plonk/src/round3.rs:473-481` -/
def divLoop (n : Nat) (coeffs : List A) : Nat → List A → List A
  | 0, done => done
  | k + 1, done => divLoop n coeffs k (done ++ [done.getD (done.length - n) 0 - coeffs.getD done.length 0])

/-- `/repo/co-circom/co-plonk/src/round3.rs:472-481` -/
def divZh (n : Nat) (coeffs : List A) : List A :=
  divLoop n coeffs (coeffs.length - n) ((coeffs.take n).map fun x => -x)

/-- `t1`, `t2`, `t3`. `/repo/co-circom/co-plonk/src/round3.rs:485-502` -/
def splitT (n : Nat) (t : List A) (b9 b10 : A) : List A × List A × List A :=
  (t.take n ++ [b9], mapHead (· - b9) ((t.drop n).take n) ++ [b10],
    mapHead (· - b10) ((t.drop (2 * n)).take (n + 6)))

/-- The end of `compute_t`. `/repo/co-circom/co-plonk/src/round3.rs:472-502` -/
def finishT (dom : Domains F) (tv tzv : List A) (b9 b10 : A) : List A × List A × List A :=
  splitT dom.size (List.zipWith (· + ·) (divZh dom.size (ifftOn dom.root4 (dom.size * 4) tv))
    (ifftOn dom.root4 (dom.size * 4) tzv)) b9 b10

/-! ### Rounds 4 and 5, shared with the verifier -/

/-- The loop of `calculate_lagrange_evaluations`; a division by zero panics. -/
def lagrangeLoop (xi zh n root : F) : Nat → F → Except Err (List F)
  | 0, _ => .ok []
  | k + 1, w =>
    if n * (xi - w) = 0 then .error (.panic "division by zero")
    else (lagrangeLoop xi zh n root k (w * root)).map ((w * zh) / (n * (xi - w)) :: ·)

/-- `/repo/co-circom/co-plonk/src/lib.rs:179-203`: the values of the Lagrange polynomials and `ξⁿ`. -/
def lagrangeEvaluations (power nPublic : Nat) (xi : F) (dom : Domains F) : Except Err (List F × F) := do
  let l ← lagrangeLoop xi (xi ^ 2 ^ power - 1) ((2 ^ power : Nat) : F) dom.root (max 1 nPublic) 1
  pure (l, xi ^ 2 ^ power)

/-- `/repo/co-circom/co-plonk/src/lib.rs:205-214` -/
def calculatePi (pub l : List F) : F := (List.zip pub l).foldl (fun pi x => pi - x.2 * x.1) 0

/-- The challenges of both sides. -/
structure Challenges (F : Type) where
  β : F
  γ : F
  α : F
  ξ : F
  v : F

/-- The opened evaluations of round 4. -/
structure Evals (F : Type) where
  a : F
  b : F
  c : F
  s1 : F
  s2 : F
  zw : F

/-- `add_poly` (with factor 1) and `add_factor_poly`. `/repo/co-circom/co-plonk/src/round5.rs:93-115` -/
def addFactorPoly (p q : List F) (factor : F) : List F :=
  zipInto (fun x y => x + y * factor) (if p.length < q.length then resize q.length p else p) q

/-- The public part of the linearisation polynomial. `/repo/co-circom/co-plonk/src/round5.rs:153-167` -/
def publicR (key : Zkey F G H) (ev : Evals F) (e3β : F) : List F :=
  let p := key.qm.coeffs.map (· * (ev.a * ev.b))
  let p := addFactorPoly p key.ql.coeffs ev.a
  let p := addFactorPoly p key.qr.coeffs ev.b
  let p := addFactorPoly p key.qo.coeffs ev.c
  let p := addFactorPoly p key.qc.coeffs 1
  addFactorPoly p key.s3.coeffs (-e3β)

/-- The polynomials of the wires, of the permutation and of the quotient. -/
structure FinalPolys (A : Type) where
  a : List A
  b : List A
  c : List A
  z : List A
  t1 : List A
  t2 : List A
  t3 : List A

/-- `tmp_poly`. `/repo/co-circom/co-plonk/src/round5.rs:183-197` -/
def quotientPart (len : Nat) (ps : FinalPolys A) (xin : F) : List A :=
  let tmp := zipInto (fun _ y => xin ^ 2 • y) (List.replicate len 0) ps.t3
  let tmp := zipInto (fun x y => x + xin • y) tmp ps.t2
  let tmp := zipInto (fun x y => x + y) tmp ps.t1
  tmp.map fun x => (xin - 1) • x

/-- `/repo/co-circom/co-plonk/src/round5.rs:118-205` -/
def computeR (addPub : A → F → A) (key : Zkey F G H) (ch : Challenges F) (ev : Evals F) (ps : FinalPolys A) (pi l0 xin : F) :
    List A :=
  let βξ := ch.β * ch.ξ
  let e2 := (ev.a + βξ + ch.γ) * (ev.b + βξ * key.vk.k1 + ch.γ) * (ev.c + βξ * key.vk.k2 + ch.γ) * ch.α
  let e3 := (ev.a + ch.β * ev.s1 + ch.γ) * (ev.b + ch.β * ev.s2 + ch.γ) * ev.zw * ch.α
  let e4 := ch.α ^ 2 * l0
  let len := key.domainSize + 6
  let r := zipInto (fun _ y => (e2 + e4) • y) (List.replicate len 0) ps.z
  let r := zipInto (fun x y => addPub x y) r (publicR key ev (e3 * ch.β))
  let r := zipInto (fun x y => x - y) r (quotientPart len ps xin)
  mapHead (fun x => addPub x (pi - e3 * (ev.c + ch.γ) - e4)) r

/-- The loop of `div_by_zerofier` with `n = 1` after the first element; `prev` is the last value that was replaced. -/
def zerofierLoop (inv : F) : A → List A → List A
  | _, [] => []
  | prev, x :: xs => (inv • (prev - x)) :: zerofierLoop inv (inv • (prev - x)) xs

/-- `/repo/co-circom/co-plonk/src/round5.rs:78-91` with `n = 1`; the inverse of zero panics. -/
def divByZerofier (l : List A) (β : F) : Except Err (List A) :=
  if β = 0 then .error (.panic "Highly unlikely to be zero")
  else
    match l with
    | [] => .error (.panic "attempt to subtract with overflow")
    | x :: xs => .ok (((-β⁻¹ • x) :: zerofierLoop β⁻¹ (-β⁻¹ • x) xs).take xs.length)

/-- `/repo/co-circom/co-plonk/src/round5.rs:208-259` -/
def computeWxi (addPub : A → F → A) (key : Zkey F G H) (ch : Challenges F) (ev : Evals F) (ps : FinalPolys A) (r : List A) :
    Except Err (List A) :=
  let res := zipInto (fun _ y => y) (List.replicate (key.domainSize + 6) 0) r
  let res := zipInto (fun x y => ch.v • y + x) res ps.a
  let res := zipInto (fun x y => ch.v ^ 2 • y + x) res ps.b
  let res := zipInto (fun x y => ch.v ^ 3 • y + x) res ps.c
  let res := zipInto (fun x y => addPub x (ch.v ^ 4 * y)) res key.s1.coeffs
  let res := zipInto (fun x y => addPub x (ch.v ^ 5 * y)) res key.s2.coeffs
  let res := mapHead (fun x => addPub (addPub (addPub (addPub (addPub x (-ch.v * ev.a)) (-ch.v ^ 2 * ev.b))
    (-ch.v ^ 3 * ev.c)) (-ch.v ^ 4 * ev.s1)) (-ch.v ^ 5 * ev.s2)) res
  divByZerofier res ch.ξ

/-- `/repo/co-circom/co-plonk/src/round5.rs:262-278` -/
def computeWxiw (addPub : A → F → A) (dom : Domains F) (ch : Challenges F) (ev : Evals F) (z : List A) :
    Except Err (List A) :=
  divByZerofier (mapHead (fun x => addPub x (-ev.zw)) z) (ch.ξ * dom.root)

end Local

/-! ### Challenges -/

section Transcript

variable {F G H : Type} (hash : List (F ⊕ G) → F)

/-- `/repo/co-circom/co-plonk/src/round2.rs:209-227`, `/repo/co-circom/co-plonk/src/plonk.rs:39-61` -/
def challengeβ (vk : Vk F G H) (pub : List F) (a b c : G) : F :=
  hash ([.inr vk.qm, .inr vk.ql, .inr vk.qr, .inr vk.qo, .inr vk.qc, .inr vk.s1, .inr vk.s2, .inr vk.s3]
    ++ pub.map .inl ++ [.inr a, .inr b, .inr c])

/-- `/repo/co-circom/co-plonk/src/round2.rs:229-231`, `/repo/co-circom/co-plonk/src/plonk.rs:63-65` -/
def challengeγ (β : F) : F := hash [.inl β]

/-- `/repo/co-circom/co-plonk/src/round3.rs:517-523`, `/repo/co-circom/co-plonk/src/plonk.rs:68-72` -/
def challengeα (β γ : F) (z : G) : F := hash [.inl β, .inl γ, .inr z]

/-- `/repo/co-circom/co-plonk/src/round4.rs:112-117`, `/repo/co-circom/co-plonk/src/plonk.rs:75-80` -/
def challengeξ (α : F) (t1 t2 t3 : G) : F := hash [.inl α, .inr t1, .inr t2, .inr t3]

/-- `/repo/co-circom/co-plonk/src/round5.rs:294-305`, `/repo/co-circom/co-plonk/src/plonk.rs:83-92` -/
def challengeV (ξ : F) (ev : Evals F) : F :=
  hash [.inl ξ, .inl ev.a, .inl ev.b, .inl ev.c, .inl ev.s1, .inl ev.s2, .inl ev.zw]

/-- `/repo/co-circom/co-plonk/src/plonk.rs:99-102` -/
def challengeU (wxi wxiw : G) : F := hash [.inr wxi, .inr wxiw]

end Transcript

/-! ### The prover -/

section Prover

variable {m c : Type → Type} [Monad m] [Monad c] {F A G H B : Type} [Field F] [DecidableEq F] [Zero A] [Add A] [Sub A] [Neg A]
  [SMul F A] (D : Driver m c F A G B) (hash : List (F ⊕ G) → F)

/-- A local computation that can fail. -/
def local' {α : Type} : Except Err α → m α
  | .ok x => pure x
  | .error e => D.fail e

/-- `T::msm_public_points_g1(&p_tau[..poly.len()], &poly)` -/
def commit (pTau : List G) (poly : List A) : m B := do
  local' D (atLeast poly.length pTau)
  pure (D.msm (pTau.take poly.length) poly)

/-- `/repo/co-circom/co-plonk/src/round1.rs:250-288`: the polynomials and the commitments. -/
def round1 (key : Zkey F G H) (dom : Domains F) (pub : List F) (wit adds b : List A) : m (Wires A × List G) := do
  let ws ← local' D (wirePolys D.promote key dom pub wit adds b)
  let ca ← commit D key.pTau ws.a.poly
  let cb ← commit D key.pTau ws.b.poly
  let cc ← commit D key.pTau ws.c.poly
  let opened ← D.first (D.openPoints [ca, cb, cc])
  pure (ws, opened)

/-- `/repo/co-circom/co-plonk/src/round2.rs:96-194`; indexing `evaluations[i * 4]` needs `4n - 3` values. -/
def computeZ (key : Zkey F G H) (dom : Domains F) (β γ : F) (ws : Wires A) (b : List A) : m (Wire A) := do
  local' D (atLeast (key.domainSize * 4 - 3) key.s1.evals)
  local' D (atLeast (key.domainSize * 4 - 3) key.s2.evals)
  local' D (atLeast (key.domainSize * 4 - 3) key.s3.evals)
  let r ← D.join [
    (key.domainSize * 6 + 2, D.arrayProdMul false (numerators D.addPub dom β γ 1 ws.a.buffer)
      (numerators D.addPub dom β γ key.vk.k1 ws.b.buffer) (numerators D.addPub dom β γ key.vk.k2 ws.c.buffer)),
    (key.domainSize * 7 + 2, D.arrayProdMul true (denominators D.addPub dom β γ key.s1 ws.a.buffer)
      (denominators D.addPub dom β γ key.s2 ws.b.buffer) (denominators D.addPub dom β γ key.s3 ws.c.buffer))]
  let bufferZ ← D.first (D.mulVec (r.getD 0 []) (r.getD 1 []))
  let z := interpolate dom (rotateRight bufferZ) ((b.drop 6).take 3)
  local' D (maxLen (key.domainSize + 3) z.poly)
  pure z

/-- `/repo/co-circom/co-plonk/src/round2.rs:197-252`, after the challenges -/
def round2 (key : Zkey F G H) (dom : Domains F) (β γ : F) (ws : Wires A) (b : List A) : m (Wire A × G) := do
  let z ← computeZ D key dom β γ ws b
  let cz ← commit D key.pTau z.poly
  let opened ← D.first (D.openPoint cz)
  pure (z, opened)

/-- `mul4vec!`. `/repo/co-circom/co-plonk/src/round3.rs:20-84` -/
def mul4vec (a b c d ap bp cp dp : List A) (len : Nat) : m (Mul4 A) := do
  let p ← D.join [(len, D.mulVec a b), (len, D.mulVec a bp), (len, D.mulVec ap b), (len, D.mulVec ap bp),
    (len, D.mulVec c d), (len, D.mulVec c dp), (len, D.mulVec cp d), (len, D.mulVec cp dp)]
  let a_b := p.getD 0 []
  let a_bp := p.getD 1 []
  let ap_b := p.getD 2 []
  let ap_bp := p.getD 3 []
  let c_d := p.getD 4 []
  let c_dp := p.getD 5 []
  let cp_d := p.getD 6 []
  let cp_dp := p.getD 7 []
  let q ← D.join [(len, D.mulVec a_b c_d),
    (len * 4, do
      let a0 ← D.mulVec ap_b c_d
      let a0 ← D.addMulVec a0 a_bp c_d
      let a0 ← D.addMulVec a0 a_b cp_d
      D.addMulVec a0 a_b c_dp),
    (len * 6, do
      let a1 ← D.mulVec ap_bp c_d
      let a1 ← D.addMulVec a1 ap_b cp_d
      let a1 ← D.addMulVec a1 ap_b c_dp
      let a1 ← D.addMulVec a1 a_bp cp_d
      let a1 ← D.addMulVec a1 a_bp c_dp
      D.addMulVec a1 a_b cp_dp),
    (len * 4, do
      let a2 ← D.mulVec a_bp cp_dp
      let a2 ← D.addMulVec a2 ap_b cp_dp
      let a2 ← D.addMulVec a2 ap_bp c_dp
      D.addMulVec a2 ap_bp cp_d),
    (len, D.mulVec ap_bp cp_dp)]
  pure ⟨q.getD 0 [], q.getD 1 [], q.getD 2 [], q.getD 3 [], q.getD 4 []⟩

/-- The vectors of the proving key that `compute_t` indexes. -/
def checkKey (key : Zkey F G H) : Except Err Unit := do
  atLeast (key.domainSize * 4) key.qm.evals
  atLeast (key.domainSize * 4) key.ql.evals
  atLeast (key.domainSize * 4) key.qr.evals
  atLeast (key.domainSize * 4) key.qo.evals
  atLeast (key.domainSize * 4) key.qc.evals
  atLeast (key.domainSize * 4) key.s1.evals
  atLeast (key.domainSize * 4) key.s2.evals
  atLeast (key.domainSize * 4) key.s3.evals
  atLeast 1 key.lagrange
  let _ ← key.lagrange.mapM fun l => atLeast (key.domainSize * 4) l.evals
  atLeast key.lagrange.length (List.replicate key.domainSize ())

/-- `/repo/co-circom/co-plonk/src/round3.rs:246-503` -/
def computeT (key : Zkey F G H) (dom : Domains F) (β γ α : F) (ws : Wires A) (z : Wire A) (b : List A) :
    m (List A × List A × List A) := do
  local' D (checkKey key)
  let len := key.domainSize * 4
  let ap := blindLine dom (b.getD 1 0) (b.getD 0 0)
  let bp := blindLine dom (b.getD 3 0) (b.getD 2 0)
  let cp := blindLine dom (b.getD 5 0) (b.getD 4 0)
  let p ← D.join [(len, D.mulVec ws.a.eval ws.b.eval), (len, D.mulVec ws.a.eval bp), (len, D.mulVec ws.b.eval ap),
    (len, D.mulVec ap bp)]
  let e1 := gateTerm D.addPub key dom ws (p.getD 0 [])
  let e1z := gateBlind key dom (p.getD 1 []) (p.getD 2 []) (p.getD 3 []) ap bp cp
  let zp := blindSquare dom 1 (b.getD 8 0) (b.getD 7 0) (b.getD 6 0)
  let zwp := blindSquare dom dom.root (b.getD 8 0) (b.getD 7 0) (b.getD 6 0)
  let e2 ← mul4vec D (idTerm D.addPub dom β γ 1 ws.a.eval) (idTerm D.addPub dom β γ key.vk.k1 ws.b.eval)
    (idTerm D.addPub dom β γ key.vk.k2 ws.c.eval) z.eval ap bp cp zp len
  let e3 ← mul4vec D (sigmaTerm D.addPub dom β γ key.s1 ws.a.eval) (sigmaTerm D.addPub dom β γ key.s2 ws.b.eval)
    (sigmaTerm D.addPub dom β γ key.s3 ws.c.eval) (shifted dom z.eval) ap bp cp zwp len
  let tv := tVec D.addPub key dom α z.eval e1 e2.r e3.r
  let tzv := tzVec key dom α zp e1z e2 e3
  pure (finishT dom tv tzv (b.getD 9 0) (b.getD 10 0))

/-- `/repo/co-circom/co-plonk/src/round3.rs:506-559`, after the challenge -/
def round3 (key : Zkey F G H) (dom : Domains F) (β γ α : F) (ws : Wires A) (z : Wire A) (b : List A) :
    m (FinalPolys A × List G) := do
  let t ← computeT D key dom β γ α ws z b
  let c1 ← commit D key.pTau t.1
  let c2 ← commit D key.pTau t.2.1
  let c3 ← commit D key.pTau t.2.2
  let opened ← D.first (D.openPoints [c1, c2, c3])
  pure (⟨ws.a.poly, ws.b.poly, ws.c.poly, z.poly, t.1, t.2.1, t.2.2⟩, opened)

/-- `DensePolynomial::evaluate` -/
def evalPublic (p : List F) (x : F) : F := p.foldr (fun a r => r * x + a) 0

/-- `/repo/co-circom/co-plonk/src/round4.rs:100-158`, after the challenge -/
def round4 (key : Zkey F G H) (dom : Domains F) (ξ : F) (ps : FinalPolys A) : m (Evals F) := do
  let opened ← D.first (D.openVec [D.evalPoly ps.a ξ, D.evalPoly ps.b ξ, D.evalPoly ps.c ξ, D.evalPoly ps.z (ξ * dom.root)])
  pure ⟨opened.getD 0 0, opened.getD 1 0, opened.getD 2 0, evalPublic key.s1.coeffs ξ, evalPublic key.s2.coeffs ξ,
    opened.getD 3 0⟩

/-- `/repo/co-circom/co-plonk/src/round5.rs:282-342`, after the challenge -/
def round5 (key : Zkey F G H) (dom : Domains F) (pub : List F) (ch : Challenges F) (ev : Evals F) (ps : FinalPolys A) :
    m (List G) := do
  let l ← local' D (lagrangeEvaluations key.pow key.nPublic ch.ξ dom)
  let r := computeR D.addPub key ch ev ps (calculatePi pub l.1) (l.1.getD 0 0) l.2
  let wxi ← local' D (computeWxi D.addPub key ch ev ps r)
  let wxiw ← local' D (computeWxiw D.addPub dom ch ev ps.z)
  let c1 ← commit D key.pTau wxi
  let c2 ← commit D key.pTau wxiw
  D.first (D.openPoints [c1, c2])

/-- All rounds for given blinding factors `b`.  `pub` are the public inputs with the leading zero, which round 1 removes.
`/repo/co-circom/co-plonk/src/lib.rs:82-127`, `/repo/co-circom/co-plonk/src/round5.rs:50-72` -/
def proveWith [Zero G] (key : Zkey F G H) (dom : Domains F) (pub : List F) (wit adds b : List A) : m (Proof F G) := do
  let r1 ← round1 D key dom pub wit adds b
  let β := challengeβ hash key.vk pub.tail (r1.2.getD 0 0) (r1.2.getD 1 0) (r1.2.getD 2 0)
  let γ := challengeγ hash β
  let r2 ← round2 D key dom β γ r1.1 b
  let α := challengeα hash β γ r2.2
  let r3 ← round3 D key dom β γ α r1.1 r2.1 b
  let ξ := challengeξ hash α (r3.2.getD 0 0) (r3.2.getD 1 0) (r3.2.getD 2 0)
  let ev ← round4 D key dom ξ r3.1
  let v := challengeV hash ξ ev
  let w ← round5 D key dom pub.tail ⟨β, γ, α, ξ, v⟩ ev r3.1
  pure ⟨r1.2.getD 0 0, r1.2.getD 1 0, r1.2.getD 2 0, r2.2, r3.2.getD 0 0, r3.2.getD 1 0, r3.2.getD 2 0, w.getD 0 0, w.getD 1 0,
    ev.a, ev.b, ev.c, ev.s1, ev.s2, ev.zw⟩

/-- `shared_witness.public_inputs[0] = 0`. `/repo/co-circom/co-plonk/src/types.rs:113-125` -/
def zeroFirst : List F → Except Err (List F)
  | [] => .error (.panic "index out of bounds")
  | _ :: pub => .ok (0 :: pub)

/-- `CoPlonk::prove_inner`: `pub` are the public inputs with the leading one, `wit` is the rest of the witness.
`/repo/co-circom/co-plonk/src/lib.rs:82-127`, `/repo/co-circom/co-plonk/src/round1.rs:76-86`, `227-247` -/
def prove [Zero G] (pr : FftParams F) (key : Zkey F G H) (pub : List F) (wit : List A) : m (Proof F G) := do
  let pub ← local' D (zeroFirst pub)
  let adds ← local' D (calculateAdditions D.promote key pub wit key.additions [])
  let b ← D.first ((List.range 11).mapM fun (_ : Nat) => D.rand)
  let dom ← local' D (Domains.new pr key.domainSize)
  proveWith D hash key dom pub wit adds b

end Prover

/-! ### The verifier -/

section Verifier

variable {F G H T : Type} [Field F] [DecidableEq F] [AddCommGroup G] [Module F G] [DecidableEq T] (hash : List (F ⊕ G) → F)

/-- `VerifierChallenges::new`, without `u`. `/repo/co-circom/co-plonk/src/plonk.rs:34-97` -/
def verifierChallenges (vk : Vk F G H) (proof : Proof F G) (pub : List F) : Challenges F :=
  let β := challengeβ hash vk pub proof.a proof.b proof.c
  let γ := challengeγ hash β
  let α := challengeα hash β γ proof.z
  let ξ := challengeξ hash α proof.t1 proof.t2 proof.t3
  ⟨β, γ, α, ξ, challengeV hash ξ ⟨proof.evalA, proof.evalB, proof.evalC, proof.evalS1, proof.evalS2, proof.evalZw⟩⟩

/-- `/repo/co-circom/co-plonk/src/plonk.rs:153-199` -/
def calculateR0D (vk : Vk F G H) (proof : Proof F G) (ch : Challenges F) (u pi l0 xin : F) : F × G :=
  let e2 := ch.α ^ 2 * l0
  let e3a := proof.evalA + proof.evalS1 * ch.β + ch.γ
  let e3b := proof.evalB + proof.evalS2 * ch.β + ch.γ
  let e3c := proof.evalC + ch.γ
  let e3 := e3a * e3b * e3c * proof.evalZw * ch.α
  let r0 := pi - e2 - e3
  let d1 := (proof.evalA * proof.evalB) • vk.qm + proof.evalA • vk.ql + proof.evalB • vk.qr + proof.evalC • vk.qo + vk.qc
  let βξ := ch.β * ch.ξ
  let d2a := (proof.evalA + βξ + ch.γ) * (proof.evalB + βξ * vk.k1 + ch.γ) * (proof.evalC + βξ * vk.k2 + ch.γ) * ch.α
  let d2 := (d2a + e2 + u) • proof.z
  let d3 := (e3a * e3b * (ch.α * ch.β * proof.evalZw)) • vk.s3
  let d4 := (xin - 1) • (proof.t1 + xin • proof.t2 + xin ^ 2 • proof.t3)
  (r0, d1 + d2 - d3 - d4)

/-- `/repo/co-circom/co-plonk/src/plonk.rs:201-214`, `g₁` is the generator. -/
def calculateE (g₁ : G) (proof : Proof F G) (ch : Challenges F) (u r0 : F) : G :=
  (ch.v * proof.evalA + ch.v ^ 2 * proof.evalB + ch.v ^ 3 * proof.evalC + ch.v ^ 4 * proof.evalS1 + ch.v ^ 5 * proof.evalS2
    + u * proof.evalZw - r0) • g₁

/-- `/repo/co-circom/co-plonk/src/plonk.rs:216-227` -/
def calculateF (vk : Vk F G H) (proof : Proof F G) (ch : Challenges F) (d : G) : G :=
  d + ch.v • proof.a + ch.v ^ 2 • proof.b + ch.v ^ 3 • proof.c + ch.v ^ 4 • vk.s1 + ch.v ^ 5 • vk.s2

/-- `Plonk::verify`; `e` is the pairing, `g₁` and `g₂` are the generators.
`/repo/co-circom/co-plonk/src/plonk.rs:119-151`, `229-246` -/
def verify (pr : FftParams F) (e : G → H → T) (g₁ : G) (g₂ : H) (vk : Vk F G H) (proof : Proof F G) (pub : List F) :
    Except Err Unit := do
  if vk.nPublic ≠ pub.length then .error (.err "Invalid number of public inputs")
  let ch := verifierChallenges hash vk proof pub
  let u := challengeU hash proof.wxi proof.wxiw
  let dom ← Domains.new pr (2 ^ vk.power)
  let l ← lagrangeEvaluations vk.power vk.nPublic ch.ξ dom
  let (r0, d) := calculateR0D vk proof ch u (calculatePi pub l.1) (l.1.getD 0 0) l.2
  let ee := calculateE g₁ proof ch u r0
  let f := calculateF vk proof ch d
  let a1 := proof.wxi + u • proof.wxiw
  let b1 := ch.ξ • proof.wxi + (u * ch.ξ * dom.root) • proof.wxiw - ee + f
  if e a1 vk.x2 = e b1 g₂ then .ok () else .error (.err "Invalid proof")

end Verifier

/-! ### The driver that computes in the clear -/

section Reference

variable {F G : Type} [Field F] [DecidableEq F] [AddCommGroup G] [Module F G]

/-- The products of the first `1, 2, …` elements. -/
def prefixProducts : F → List F → List F
  | _, [] => []
  | acc, x :: xs => (acc * x) :: prefixProducts (acc * x) xs

/-- What `array_prod_mul` computes: prefix products of the products of the three vectors, or their inverses. -/
def arrayProd (inv : Bool) (x y z : List F) : Except Err (List F) :=
  let r := prefixProducts 1 (List.zipWith (· * ·) (List.zipWith (· * ·) x y) z)
  if inv then
    if 0 ∈ r then .error (.err "Cannot invert zero") else .ok (r.map (·⁻¹))
  else .ok r

/-- The reference: the same prover on the values themselves.  It is not part of the repository; it says what the prover
computes when nothing is shared.  Products of vectors are products of the entries and an opened value is the value.  Its `rand`
is not used: the reference prover is given its blinding factors. -/
def reference : Driver (Except Err) (Except Err) F F G G where
  addPub x y := x + y
  promote x := x
  evalPoly := evalPublic
  msm := Rep3.Point.msm
  rand := .error (.panic "unreachable")
  mulVec x y := .ok (List.zipWith (· * ·) x y)
  addMulVec x y z := .ok (List.zipWith (· + ·) (List.zipWith (· * ·) y z) x)
  arrayProdMul := arrayProd
  openVec x := .ok x
  openPoints x := .ok x
  openPoint x := .ok x
  first x := x
  join ps := ps.mapM (·.2)
  fail e := .error e

/-- The reference prover with the blinding factors `b`; the steps are those of `prove`. -/
def proveReference {H : Type} (hash : List (F ⊕ G) → F) (pr : FftParams F) (key : Zkey F G H) (pub wit b : List F) :
    Except Err (Proof F G) := do
  let pub ← zeroFirst pub
  let adds ← calculateAdditions (fun x => x) key pub wit key.additions []
  let dom ← Domains.new pr key.domainSize
  proveWith reference hash key dom pub wit adds b

end Reference

end Verif.Plonk
