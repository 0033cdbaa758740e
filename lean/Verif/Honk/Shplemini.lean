import Verif.Honk.CoSumcheck
import Verif.Plonk.Model

/-!
# Model: the opening proof of UltraHonk

Models `/repo/co-noir/ultrahonk/src/decider/shplemini/shplemini_prover.rs`, `shplemini_verifier.rs`, the last step of
`/repo/co-noir/ultrahonk/src/decider/decider_prover.rs` and of `decider_verifier.rs`, and their collaborative counterpart
`/repo/co-noir/co-ultrahonk/src/co_decider/co_shplemini/co_shplemini_prover.rs`, without zero knowledge.

The plain and the collaborative prover do the same with the coefficients, so the model has one prover, which takes the type `A` of the
coefficients and the operations in which the two differ as a parameter.  The transcript is replaced by functions from what was sent
since the sumcheck to the challenges.
-/

namespace Verif.Honk

/-! ## The columns -/

/-- The precomputed columns. `/repo/co-noir/co-noir-common/src/polynomials/entities.rs:255-390` -/
def Col.precomputed : List Col := Col.all.take 28

/-- The columns of the witness. `/repo/co-noir/co-noir-common/src/polynomials/entities.rs:635-651` -/
def Col.witness : List Col := (Col.all.drop 28).take 8

/-- `to_be_shifted`. `/repo/co-noir/co-noir-common/src/polynomials/entities.rs:661-663` -/
def Col.toBeShifted : List Col := [.wl, .wr, .wo, .w4, .zPerm]

/-- `ShiftedWitnessEntities`. `/repo/co-noir/co-noir-common/src/polynomials/entities.rs:734-744` -/
def Col.shifts : List Col := [.wlShift, .wrShift, .woShift, .w4Shift, .zPermShift]

section Local

variable {F A : Type} [Field F] [DecidableEq F] [Zero A] [Add A] [Sub A] [Neg A] [SMul F A]

/-! ## Polynomials -/

/-- `add_scaled_slice`. `/repo/co-noir/co-noir-common/src/polynomials/polynomial.rs:245-250`,
`/repo/co-noir/co-noir-common/src/polynomials/shared_polynomial.rs:51-57` -/
def addScaled (k : F) (p src : List A) : List A := Plonk.zipInto (fun x y => x + k • y) p src

/-- The loop of `factor_roots`: `t` is the coefficient of the quotient that was computed last. -/
def divideLoop (k : F) : A → List A → List A
  | _, [] => []
  | t, c :: cs => k • (c - t) :: divideLoop k (k • (c - t)) cs

/-- `factor_roots`. `/repo/co-noir/co-noir-common/src/polynomials/polynomial.rs:178-227`,
`/repo/co-noir/co-noir-common/src/polynomials/shared_polynomial.rs:94-144` -/
def factorRoots (root : F) (p : List A) : List A :=
  if root = 0 then p.tail else (divideLoop (-root)⁻¹ 0 p).dropLast

/-- `tmp[0] -= v` -/
def subHead (p : List A) (v : A) : List A := Plonk.mapHead (· - v) p

/-! ## The prover -/

/-- `add_scaled_slice` of one polynomial after the other, with the powers of the challenge; the state is the sum and the power.
`/repo/co-noir/ultrahonk/src/decider/shplemini/shplemini_prover.rs:77-91` -/
def batchPolys (ρ : F) (s : List A × F) (ps : List (List A)) : List A × F :=
  ps.foldl (fun s p => (addScaled s.2 s.1 p, s.2 * ρ)) s

/-- The folded polynomials that are not constant: `k` more rounds, the vector has `2 ^ (k + 1)` coefficients.
`/repo/co-noir/ultrahonk/src/decider/shplemini/shplemini_prover.rs:213-233` -/
def foldPolys : List F → Nat → List A → List (List A)
  | u :: us, k + 1, a => coFold u a (2 ^ (k + 1)) :: foldPolys us k (coFold u a (2 ^ (k + 1)))
  | _, _, _ => []

/-- The constants `tail · final_eval` behind the folded polynomials.
`/repo/co-noir/ultrahonk/src/decider/shplemini/shplemini_prover.rs:246-259` -/
def tailPolys (final : A) : F → List F → List (List A)
  | _, [] => []
  | t, u :: us => [(t * (1 - u)) • final] :: tailPolys final (t * (1 - u)) us

/-- `compute_fold_polynomials`; `1 << (log_n - l - 1)` in round `l` is `2 ^ (k + 1)` for the `k + 1 = log_n - l - 1` rounds that
remain.  With `log_n = 1` the vector of folded polynomials is empty when its last element is taken.
`/repo/co-noir/ultrahonk/src/decider/shplemini/shplemini_prover.rs:198-262` -/
def computeFoldPolynomials (logN : Nat) (us : List F) (a0 : List A) : Except Err (List (List A)) :=
  if logN = 0 then .error (.panic "attempt to subtract with overflow")
  else
    let folds := foldPolys us (logN - 1) a0
    match folds.getLast? with
    | none => .error (.panic "attempt to subtract with overflow")
    | some last =>
      match us[logN - 1]? with
      | none => .error (.panic "index out of bounds")
      | some u =>
        let final := last.getD 0 0 + u • (last.getD 1 0 - last.getD 0 0)
        .ok (folds ++ [[final]] ++ tailPolys final 1 ((us.take (us.length - 1)).drop logN))

/-- `ShpleminiOpeningClaim`. `/repo/co-noir/co-noir-common/src/shplemini.rs:11-15` -/
structure OpenClaim (F A : Type) where
  poly : List A
  point : F
  value : A
  fold : Bool

/-- `powers_of_evaluation_challenge`. `/repo/co-noir/ultrahonk/src/decider/shplemini/shplemini_verifier.rs:80-90` -/
def squares (r : F) (n : Nat) : List F := List.iterate (fun x => x * x) r (max n 1)

/-- `construct_univariate_opening_claims`. `/repo/co-noir/ultrahonk/src/decider/shplemini/shplemini_prover.rs:311-369` -/
def openClaims (evalPoly : List A → F → A) (D : Nat) (pos neg : List A) (folds : List (List A)) (r : F) : List (OpenClaim F A) :=
  ⟨pos, r, evalPoly pos r, false⟩ :: ⟨neg, -r, evalPoly neg (-r), false⟩ ::
    List.zipWith (fun x p => ⟨p, -x, evalPoly p (-x), true⟩) (squares r D).tail folds

/-- `compute_gemini_fold_pos_evaluations`. `/repo/co-noir/ultrahonk/src/decider/shplemini/shplemini_prover.rs:372-387` -/
def posValues (evalPoly : List A → F → A) (claims : List (OpenClaim F A)) : List A :=
  (claims.filter (·.fold)).map fun c => evalPoly c.poly (-c.point)

/-- The polynomials, points and values in the order in which `compute_batched_quotient` and
`compute_partially_evaluated_batched_quotient` go through them: a folded polynomial is opened at the negated point first, and the value
is the next one of `posValues`.  Both functions have the same loop.
`/repo/co-noir/ultrahonk/src/decider/shplemini/shplemini_prover.rs:540-571, 625-652` -/
def openings : List (OpenClaim F A) → List A → List (List A × F × A)
  | [], _ => []
  | c :: cs, pos =>
    if c.fold then (c.poly, -c.point, pos.headD 0) :: (c.poly, c.point, c.value) :: openings cs pos.tail
    else (c.poly, c.point, c.value) :: openings cs pos

/-- `compute_batched_quotient`; the size of the result is the largest size of a polynomial, rounded up to a power of two in the plain
prover. `/repo/co-noir/ultrahonk/src/decider/shplemini/shplemini_prover.rs:594-668`,
`/repo/co-noir/co-ultrahonk/src/co_decider/co_shplemini/co_shplemini_prover.rs:661-735` -/
def batchedQuotient (roundUp : Nat → Nat) (ν : F) (os : List (List A × F × A)) : List A :=
  (os.foldl (fun s o => (addScaled s.2 s.1 (factorRoots o.2.1 (subHead o.1 o.2.2)), s.2 * ν))
    (List.replicate (roundUp (os.foldl (fun m o => max m o.1.length) 0)) 0, (1 : F))).1

/-- `compute_partially_evaluated_batched_quotient`; the inverse of zero is left zero.
`/repo/co-noir/ultrahonk/src/decider/shplemini/shplemini_prover.rs:494-592`,
`/repo/co-noir/co-ultrahonk/src/co_decider/co_shplemini/co_shplemini_prover.rs:560-652` -/
def partialQuotient (ν z : F) (q : List A) (os : List (List A × F × A)) : List A :=
  (os.foldl (fun s o => (addScaled (-(s.2 * (z - o.2.1)⁻¹)) s.1 (subHead o.1 o.2.2), s.2 * ν)) (q, (1 : F))).1

end Local

/-- What the prover sends: the commitments to the folded polynomials, their values, and the commitments to the two quotients. -/
structure PcsProof (F G : Type) where
  folds : List G
  evals : List F
  q : G
  w : G

/-- The challenges, as functions of what was sent since the sumcheck. -/
structure PcsChallenges (F G : Type) where
  rho : F
  r : List G → F
  nu : List G → List F → F
  z : List G → List F → G → F

/-- The operations in which the plain and the collaborative prover differ.  `commit` is the multiplication of the coefficients with the
points of the reference string, `openPoints` and `openMany` reconstruct what is sent. -/
structure PcsDriver (m : Type → Type) (F A G B : Type) where
  promote : F → A
  evalPoly : List A → F → A
  roundUp : Nat → Nat
  commit : List G → List A → m B
  openPoints : List B → m (List G)
  openPoint : B → m G
  openMany : List A → m (List F)
  fail : {α : Type} → Err → m α

section Prover

variable {m : Type → Type} [Monad m] {F A G B : Type} [Field F] [DecidableEq F] [Zero A] [Add A] [Sub A] [Neg A] [SMul F A]
variable (d : PcsDriver m F A G B)

/-- A computation of the prover that may panic. -/
def PcsDriver.lift {α : Type} : Except Err α → m α
  | .ok x => pure x
  | .error e => d.fail e

/-- `compute_batched_polys`: the sums of the columns that are opened as they are, and of those that are opened shifted.  The plain
prover has one loop over the precomputed columns and the columns of the witness.
`/repo/co-noir/ultrahonk/src/decider/shplemini/shplemini_prover.rs:42-94`,
`/repo/co-noir/co-ultrahonk/src/co_decider/co_shplemini/co_shplemini_prover.rs:49-115` -/
def computeBatchedPolys (ρ : F) (n : Nat) (pub : List (List F)) (wit shift : List (List A)) : List A × List A :=
  let p := batchPolys ρ (List.replicate n 0, 1) pub
  let f := batchPolys ρ (p.1.map d.promote, p.2) wit
  let g := batchPolys ρ (List.replicate n 0, f.2) shift
  (f.1, g.1)

/-- `compute_partially_evaluated_batch_polynomials`.
`/repo/co-noir/ultrahonk/src/decider/shplemini/shplemini_prover.rs:270-291` -/
def posNeg (f g : List A) (r : F) : Except Err (List A × List A) :=
  if r = 0 then .error (.panic "called `Option::unwrap()` on a `None` value")
  else
    let g := g.map fun x => r⁻¹ • x
    .ok (Plonk.zipInto (· + ·) f g, Plonk.zipInto (· - ·) f g)

/-- `shplemini_prove`, with `gemini_prove` and `shplonk_prove`, and `compute_opening_proof`; the value that `compute_opening_proof`
subtracts from the first coefficient is zero.
`/repo/co-noir/ultrahonk/src/decider/shplemini/shplemini_prover.rs:131-195, 400-492`,
`/repo/co-noir/ultrahonk/src/decider/decider_prover.rs:40-58`,
`/repo/co-noir/co-ultrahonk/src/co_decider/co_shplemini/co_shplemini_prover.rs:158-234, 461-558`,
`/repo/co-noir/co-noir-common/src/lib.rs:35-84` -/
def shpleminiProve (ch : PcsChallenges F G) (crs : List G) (logN : Nat) (us : List F) (pub : List (List F)) (wit shift : List (List A)) :
    m (PcsProof F G) := do
  let b := computeBatchedPolys d ch.rho (2 ^ logN) pub wit shift
  let polys ← d.lift (computeFoldPolynomials logN us (Plonk.zipInto (· + ·) b.1 b.2.tail))
  let cs ← (polys.take (us.length - 1)).mapM (d.commit crs)
  let folds ← d.openPoints cs
  let r := ch.r folds
  let a ← d.lift (posNeg b.1 b.2 r)
  let claims := openClaims d.evalPoly us.length a.1 a.2 polys r
  let evals ← d.openMany (((claims.drop 1).take us.length).map (·.value))
  let ν := ch.nu folds evals
  let os := openings claims (posValues d.evalPoly claims)
  let quotient := batchedQuotient d.roundUp ν os
  let c ← d.commit crs quotient
  let q ← d.openPoint c
  let z := ch.z folds evals q
  let c ← d.commit crs (factorRoots z (partialQuotient ν z quotient os))
  let w ← d.openPoint c
  pure ⟨folds, evals, q, w⟩

end Prover

section Plain

variable {F G : Type} [Field F] [DecidableEq F] [AddCommGroup G] [Module F G]

/-- The smallest power of two that is at least `n`. -/
def nextPowerOfTwo (n : Nat) : Nat := 2 ^ Nat.clog 2 n

/-- The plain prover. `/repo/co-noir/co-noir-common/src/utils.rs:28-43`; `eval_poly` is the evaluation of the library. -/
def plainPcs : PcsDriver (Except Err) F F G G where
  promote := id
  evalPoly := Plonk.evalPublic
  roundUp := nextPowerOfTwo
  commit crs p := if crs.length < p.length then .error (.err "CrsTooSmall") else .ok (Rep3.Point.msm crs p)
  openPoints := .ok
  openPoint := .ok
  openMany := .ok
  fail := .error

/-! ## The verifier -/

/-- `compute_inverted_gemini_denominators`; the batched inversion leaves zero as it is.
`/repo/co-noir/ultrahonk/src/decider/shplemini/shplemini_verifier.rs:92-110` -/
def invertedDenominators (z : F) (powers : List F) : List F := powers.flatMap fun x => [(z - x)⁻¹, (z + x)⁻¹]

/-- The two loops of `update_batch_mul_inputs_and_batched_evaluation`; the state has the scalars and commitments so far, the batched
evaluation and the power of the challenge. `/repo/co-noir/ultrahonk/src/decider/shplemini/shplemini_verifier.rs:355-396` -/
def batchClaims (ρ s : F) (st : List (F × G) × F × F) (claims : List (G × F)) : List (F × G) × F × F :=
  claims.foldl (fun st c => (st.1 ++ [(-s * st.2.2, c.1)], st.2.1 + c.2 * st.2.2, st.2.2 * ρ)) st

/-- `compute_fold_pos_evaluations`, from the last round to the first; the padding indicator is one everywhere without zero knowledge.
`/repo/co-noir/ultrahonk/src/decider/shplemini/shplemini_verifier.rs:502-545` -/
def foldPosValues (v : F) : List (F × F × F) → Except Err (List F)
  | [] => .ok []
  | (x, u, neg) :: rest => do
    let ps ← foldPosValues v rest
    let den := x * (1 - u) + u
    if den = 0 then .error (.panic "Non-zero denominator")
    else pure ((x * ps.headD v * 2 - neg * (x * (1 - u) - u)) * den⁻¹ :: ps)

/-- `batch_gemini_claims_received_from_prover`; the state is the constant term and the scalars and commitments so far.
`/repo/co-noir/ultrahonk/src/decider/shplemini/shplemini_verifier.rs:438-470` -/
def batchGemini (folds : List G) (neg pos inv νs : List F) (st : F × List (F × G)) : F × List (F × G) :=
  (List.range' 1 (neg.length - 1)).foldl (fun st j =>
    let a := νs.getD (2 * j) 0 * inv.getD (2 * j) 0
    let b := νs.getD (2 * j + 1) 0 * inv.getD (2 * j + 1) 0
    (st.1 + (b * neg.getD j 0 + a * pos.getD j 0), st.2 ++ [(-1 * (b + a), folds.getD (j - 1) 0)])) st

/-- `compute_batch_opening_claim` and `reduce_verify_shplemini` with the multiplication of the points, and `pairing_check`.  The verifier
reads as many points and values from the proof as there are variables; a proof with other lengths is taken to be rejected when it is
read. `/repo/co-noir/ultrahonk/src/decider/shplemini/shplemini_verifier.rs:112-345`,
`/repo/co-noir/ultrahonk/src/decider/decider_verifier.rs:39-69` -/
def shpleminiVerify {H T : Type} [AddCommGroup H] [Module F H] [AddCommGroup T] [Module F T] [DecidableEq T] (e : G →ₗ[F] H →ₗ[F] T)
    (gen : G) (g2 g2x : H) (ch : PcsChallenges F G) (us : List F) (comm : Col → G) (evals : Col → F) (proof : PcsProof F G) :
    Except Err Bool := do
  let D := us.length
  if D = 0 then .error (.panic "attempt to subtract with overflow")
  else if proof.folds.length ≠ D - 1 ∨ proof.evals.length ≠ D then .error (.err "ProofTooSmall")
  else
    let r := ch.r proof.folds
    let ν := ch.nu proof.folds proof.evals
    let z := ch.z proof.folds proof.evals proof.q
    let powers := squares r D
    let νs := List.iterate (· * ν) 1 (2 * D)
    let inv := invertedDenominators z powers
    let unshifted := inv.getD 0 0 + ν * inv.getD 1 0
    if r = 0 then .error (.panic "called `Option::unwrap()` on a `None` value")
    else
      let shifted := r⁻¹ * (inv.getD 0 0 - ν * inv.getD 1 0)
      let f := batchClaims ch.rho unshifted ([(1, proof.q)], 0, 1) ((Col.precomputed ++ Col.witness).map fun c => (comm c, evals c))
      let g := batchClaims ch.rho shifted f (List.zipWith (fun c s => (comm c, evals s)) Col.toBeShifted Col.shifts)
      let pos ← foldPosValues g.2.1 (List.zipWith (fun x y => (x, y)) powers (List.zipWith (fun u n => (u, n)) us proof.evals))
      let h := batchGemini proof.folds proof.evals pos inv νs (0, g.1)
      let const := h.1 + pos.getD 0 0 * inv.getD 0 0 + proof.evals.getD 0 0 * ν * inv.getD 1 0
      let terms := h.2 ++ [(const, gen), (z, proof.w)]
      let p0 := (terms.map fun t => t.1 • t.2).sum
      let p1 := -proof.w
      .ok (decide (e p0 g2 + e p1 g2x = 0))

end Plain

end Verif.Honk
