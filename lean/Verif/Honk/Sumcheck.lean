import Verif.Honk.Relations
import Mathlib.Data.Nat.Log

/-!
# The sumcheck of UltraHonk without zero knowledge

Models `/repo/co-noir/ultrahonk/src/decider/sumcheck` (`sumcheck_prover.rs`, `sumcheck_round_prover.rs`, `sumcheck_verifier.rs`,
`sumcheck_round_verifier.rs`) and the gate separator of `/repo/co-noir/ultrahonk/src/decider/types.rs`.

The transcript is an arbitrary function `ch`: the challenge of a round is a function of the univariates sent so far.  Everything
that is in the transcript before the sumcheck is part of the function.
-/

namespace Verif.Honk

variable {F : Type} [Field F] [DecidableEq F]

/-- A value or the panic of an index out of bounds. -/
def index {α : Type} (l : List α) (i : Nat) : Except Err α :=
  match l[i]? with
  | some x => .ok x
  | none => .error (.panic "index out of bounds")

/-- `k` rounds of a loop. -/
def rounds {σ : Type} (step : σ → Except Err σ) : Nat → σ → Except Err σ
  | 0, st => .ok st
  | k + 1, st => step st >>= rounds step k

/-! ## Challenges -/

/-- `generate_alphas_round`: the powers of the challenge.  `/repo/co-noir/ultrahonk/src/oink/oink_prover.rs:418-431` -/
def alphaPowers (α : F) : List F := List.iterate (fun x => x * α) α 27

/-- `generate_gate_challenges`: each is the square of the one before.  `/repo/co-noir/ultrahonk/src/ultra_prover.rs:21-31`,
`/repo/co-noir/co-noir-common/src/transcript.rs:435-457` -/
def gateChallenges (β : F) (virtualLogN : Nat) : List F := List.iterate (fun x => x * x) β virtualLogN

/-! ## The gate separator -/

/-- `GateSeparatorPolynomial`.  `/repo/co-noir/ultrahonk/src/decider/types.rs:44-50` -/
structure Separator (F : Type) where
  betas : List F
  products : List F
  partialResult : F
  idx : Nat
  periodicity : Nat

namespace Separator

/-- The products of the challenges: the entry `i` is the product of the challenges at the bits of `i`.
`/repo/co-noir/ultrahonk/src/decider/types.rs:59-67` -/
def betaProducts (betas : List F) (logN : Nat) : List F :=
  let l := (betas.take logN).foldl (fun l β => l ++ β :: l.tail.map (· * β)) [1]
  l ++ List.replicate (2 ^ logN - l.length) 1

/-- `GateSeparatorPolynomial::new`.  `/repo/co-noir/ultrahonk/src/decider/types.rs:53-76` -/
def new (betas : List F) (logN : Nat) : Separator F := ⟨betas, betaProducts betas logN, 1, 0, 2⟩

/-- `/repo/co-noir/ultrahonk/src/decider/types.rs:78-90` -/
def newWithoutProducts (betas : List F) : Separator F := ⟨betas, [], 1, 0, 2⟩

/-- `/repo/co-noir/ultrahonk/src/decider/types.rs:92-94` -/
def currentElement (s : Separator F) : Except Err F := index s.betas s.idx

/-- `/repo/co-noir/ultrahonk/src/decider/types.rs:96-102` -/
def partiallyEvaluate (s : Separator F) (u : F) : Except Err (Separator F) := do
  let β ← index s.betas s.idx
  pure { s with partialResult := s.partialResult * (1 + u * (β - 1)), idx := s.idx + 1, periodicity := s.periodicity * 2 }

/-- `/repo/co-noir/ultrahonk/src/decider/types.rs:104-112` -/
def partiallyEvaluateWithPadding (s : Separator F) (u indicator : F) : Except Err (Separator F) := do
  let β ← index s.betas s.idx
  let eval := 1 + u * (β - 1)
  pure { s with
    partialResult := (1 - indicator) * s.partialResult + indicator * s.partialResult * eval
    idx := s.idx + 1
    periodicity := s.periodicity * 2 }

/-- `/repo/co-noir/ultrahonk/src/decider/types.rs:114-120` -/
def constructVirtual (betas : List F) (us : List F) : Except Err (Separator F) :=
  us.foldlM partiallyEvaluate (newWithoutProducts betas)

end Separator

/-! ## The prover -/

/-- `AllRelationAcc`.  `/repo/co-noir/ultrahonk/src/decider/relations/mod.rs:76-87` -/
abbrev Acc (F : Type) : Type := (s : Subrel) → Univariate F s.len

/-- No accumulator is longer than `MAX_PARTIAL_RELATION_LENGTH`. -/
theorem Subrel.len_le (s : Subrel) : s.len ≤ 7 := by cases s <;> decide

/-- `extend_edges`.  `/repo/co-noir/ultrahonk/src/decider/sumcheck/sumcheck_round_prover.rs:51-61` -/
def extendEdges (polys : Col → List F) (i : Nat) : Except Err (Col → Univariate F 7) :=
  if Col.all.all (fun c => decide (i + 2 ≤ (polys c).length)) then
    .ok fun c => Univariate.extendFrom 7 ![(polys c).getD i 0, (polys c).getD (i + 1) 0]
  else .error (.panic "range end index out of range for slice")

/-- `accumulate_relation_univariates`.  `/repo/co-noir/ultrahonk/src/decider/sumcheck/sumcheck_round_prover.rs:125-219` -/
def accumulateRelations (p : Params F) (acc : Acc F) (e : Col → Univariate F 7) (scale : F) : Acc F := fun s i =>
  if s.rel.skip e then acc s i else acc s i + contribution p e scale s (i.castLE s.len_le)

/-- The factors of `AllRelationAcc::scale`.  `/repo/co-noir/ultrahonk/src/decider/relations/mod.rs:131-142` -/
def scaleFactor (first : F) (elements : List F) : Subrel → F
  | .arith0 => first
  | .arith1 => elements.getD 0 0
  | .perm0 => elements.getD 1 0
  | .perm1 => elements.getD 2 0
  | .lookup0 => elements.getD 3 0
  | .lookup1 => elements.getD 4 0
  | .lookup2 => elements.getD 5 0
  | .delta0 => elements.getD 6 0
  | .delta1 => elements.getD 7 0
  | .delta2 => elements.getD 8 0
  | .delta3 => elements.getD 9 0
  | .elliptic0 => elements.getD 10 0
  | .elliptic1 => elements.getD 11 0
  | .memory0 => elements.getD 12 0
  | .memory1 => elements.getD 13 0
  | .memory2 => elements.getD 14 0
  | .memory3 => elements.getD 15 0
  | .memory4 => elements.getD 16 0
  | .memory5 => elements.getD 17 0
  | .nnf0 => elements.getD 18 0
  | .external0 => elements.getD 19 0
  | .external1 => elements.getD 20 0
  | .external2 => elements.getD 21 0
  | .external3 => elements.getD 22 0
  | .internal0 => elements.getD 23 0
  | .internal1 => elements.getD 24 0
  | .internal2 => elements.getD 25 0
  | .internal3 => elements.getD 26 0

/-- `extend_and_batch_univariates`.  `/repo/co-noir/ultrahonk/src/decider/sumcheck/sumcheck_round_prover.rs:79-93`,
`/repo/co-noir/ultrahonk/src/decider/relations/mod.rs:144-198`, `/repo/co-noir/ultrahonk/src/decider/univariate.rs:216-232` -/
def extendAndBatch (size : Nat) (acc : Acc F) (sep : Separator F) : Except Err (Univariate F size) := do
  let β ← sep.currentElement
  let pow : Univariate F size := Univariate.extendFrom size ![1, β]
  pure (Subrel.all.map fun s =>
    let extended := Univariate.extendFrom size (acc s)
    if s.independent then extended * pow * Univariate.const sep.partialResult else extended).sum

/-- `batch_over_relations_univariates`.  `/repo/co-noir/ultrahonk/src/decider/sumcheck/sumcheck_round_prover.rs:111-123` -/
def batchOverRelations (size : Nat) (acc : Acc F) (alphas : List F) (sep : Separator F) : Except Err (Univariate F size) :=
  if alphas.length = 27 then
    extendAndBatch size (fun s i => acc s i * scaleFactor 1 alphas s) sep
  else .error (.panic "assertion failed: elements.len() == NUM_SUBRELATIONS - 1")

/-- One turn of the loop over the edges.  `/repo/co-noir/ultrahonk/src/decider/sumcheck/sumcheck_round_prover.rs:237-249` -/
def edgeStep (p : Params F) (sep : Separator F) (polys : Col → List F) (acc : Acc F) (k : Nat) : Except Err (Acc F) := do
  let e ← extendEdges polys (2 * k)
  let f ← index sep.products (((2 * k) >>> 1) * sep.periodicity)
  pure (accumulateRelations p acc e f)

/-- `compute_univariate_inner`; the loop goes over the even numbers below the size.
`/repo/co-noir/ultrahonk/src/decider/sumcheck/sumcheck_round_prover.rs:221-253` -/
def computeUnivariate (size : Nat) (p : Params F) (sep : Separator F) (alphas : List F) (polys : Col → List F) (roundSize : Nat) :
    Except Err (Univariate F size) := do
  let acc ← (List.range ((roundSize + 1) / 2)).foldlM (edgeStep p sep polys) (fun _ _ => 0)
  batchOverRelations size acc alphas sep

/-- `compute_virtual_contribution`.  `/repo/co-noir/ultrahonk/src/decider/sumcheck/sumcheck_round_prover.rs:384-421` -/
def computeVirtualContribution (p : Params F) (sep : Separator F) (alphas : List F) (polys : Col → List F) :
    Except Err (Univariate F 8) := do
  let e ← extendEdges polys 0
  batchOverRelations 8 (accumulateRelations p (fun _ _ => 0) e 1) alphas sep

/-- One column in `partially_evaluate_init`.  That the source is long enough has been checked by `extend_edges` in the same round.
`/repo/co-noir/ultrahonk/src/decider/sumcheck/sumcheck_prover.rs:20-35` -/
def fold (u : F) (l : List F) (n : Nat) : List F :=
  (List.range n).map fun k => l.getD (2 * k) 0 + (l.getD (2 * k + 1) 0 - l.getD (2 * k) 0) * u

/-- `partially_evaluate_inplace`: the source and the target are the same vector, but each value is written after it has been read.
`/repo/co-noir/ultrahonk/src/decider/sumcheck/sumcheck_prover.rs:37-56` -/
def partiallyEvaluateInplace (polys : Col → List F) (u : F) : Except Err (Col → List F) :=
  if Col.all.all (fun c => decide ((polys c).length % 2 = 0)) then
    .ok fun c =>
      let l := fold u (polys c) ((polys c).length / 2)
      if l.length < 2 then l ++ [0] else l
  else .error (.panic "index out of bounds")

/-- The part of a proof that belongs to the sumcheck. -/
structure SumcheckProof (F : Type) (size : Nat) where
  univariates : List (Univariate F size)
  evaluations : Col → F

/-- The state of the loop over the rounds. -/
structure ProverState (F : Type) (size : Nat) where
  sent : List (Univariate F size)
  challenges : List F
  polys : Col → List F
  sep : Separator F
  roundSize : Nat

/-- A round after the first.  `/repo/co-noir/ultrahonk/src/decider/sumcheck/sumcheck_prover.rs:147-171` -/
def realRound (p : Params F) (alphas : List F) (ch : List (Univariate F 8) → F) (st : ProverState F 8) : Except Err (ProverState F 8) := do
  let g ← computeUnivariate 8 p st.sep alphas st.polys st.roundSize
  let u := ch (st.sent ++ [g])
  let polys ← partiallyEvaluateInplace st.polys u
  let sep ← st.sep.partiallyEvaluate u
  pure ⟨st.sent ++ [g], st.challenges ++ [u], polys, sep, st.roundSize / 2⟩

/-- A round for a variable beyond the size of the circuit.  `/repo/co-noir/ultrahonk/src/decider/sumcheck/sumcheck_prover.rs:178-203` -/
def virtualRound (p : Params F) (alphas : List F) (ch : List (Univariate F 8) → F) (st : ProverState F 8) :
    Except Err (ProverState F 8) := do
  let g ← computeVirtualContribution p st.sep alphas st.polys
  let u := ch (st.sent ++ [g])
  let polys := fun c => match st.polys c with
    | [] => []
    | x :: xs => x * (1 - u) :: xs
  let sep ← st.sep.partiallyEvaluate u
  pure ⟨st.sent ++ [g], st.challenges ++ [u], polys, sep, st.roundSize⟩

/-- `extract_claimed_evaluations`.  `/repo/co-noir/ultrahonk/src/decider/sumcheck/sumcheck_prover.rs:81-94` -/
def extractClaimedEvaluations (polys : Col → List F) : Except Err (Col → F) :=
  if Col.all.all (fun c => decide (0 < (polys c).length)) then .ok fun c => (polys c).getD 0 0
  else .error (.panic "index out of bounds")

/-- `sumcheck_prove`, on the columns `polys` of a circuit of size `n`.
`/repo/co-noir/ultrahonk/src/decider/sumcheck/sumcheck_prover.rs:96-215` -/
def sumcheckProve (p : Params F) (alphas betas : List F) (ch : List (Univariate F 8) → F) (n virtualLogN : Nat) (polys : Col → List F) :
    Except Err (SumcheckProof F 8) := do
  let d := Nat.log2 n
  let sep := Separator.new betas d
  let g ← computeUnivariate 8 p sep alphas polys n
  let u := ch [g]
  let sep ← sep.partiallyEvaluate u
  let st ← rounds (realRound p alphas ch) (d - 1) ⟨[g], [u], fun c => fold u (polys c) (n / 2), sep, n / 2⟩
  let virtualSep ← Separator.constructVirtual betas st.challenges
  let st ← rounds (virtualRound p alphas ch) (virtualLogN - d) { st with sep := virtualSep }
  let evaluations ← extractClaimedEvaluations st.polys
  pure ⟨st.sent, evaluations⟩

/-! ## The verifier -/

/-- The factors of `AllRelationEvaluations::scale_and_batch_elements`.
`/repo/co-noir/ultrahonk/src/decider/relations/mod.rs:104-126` -/
def batchFactor (first : F) (elements : List F) : Subrel → F
  | .arith0 => first
  | .arith1 => elements.getD 0 0
  | .perm0 => elements.getD 1 0
  | .perm1 => elements.getD 2 0
  | .lookup0 => elements.getD 3 0
  | .lookup1 => elements.getD 4 0
  | .lookup2 => elements.getD 5 0
  | .delta0 => elements.getD 6 0
  | .delta1 => elements.getD 7 0
  | .delta2 => elements.getD 8 0
  | .delta3 => elements.getD 9 0
  | .elliptic0 => elements.getD 10 0
  | .elliptic1 => elements.getD 11 0
  | .memory0 => elements.getD 12 0
  | .memory1 => elements.getD 13 0
  | .memory2 => elements.getD 14 0
  | .memory3 => elements.getD 15 0
  | .memory4 => elements.getD 16 0
  | .memory5 => elements.getD 17 0
  | .nnf0 => elements.getD 18 0
  | .external0 => elements.getD 19 0
  | .external1 => elements.getD 20 0
  | .external2 => elements.getD 21 0
  | .external3 => elements.getD 22 0
  | .internal0 => elements.getD 23 0
  | .internal1 => elements.getD 24 0
  | .internal2 => elements.getD 25 0
  | .internal3 => elements.getD 26 0

/-- `compute_full_relation_purported_value`.
`/repo/co-noir/ultrahonk/src/decider/sumcheck/sumcheck_round_verifier.rs:156-179` -/
def fullRelationValue (p : Params F) (e : Col → F) (sep : Separator F) (alphas : List F) : Except Err F :=
  if alphas.length = 27 then
    .ok (Subrel.all.map fun s => evaluation p e sep.partialResult s * batchFactor 1 alphas s).sum
  else .error (.panic "assertion failed: elements.len() == NUM_SUBRELATIONS - 1")

/-- The state of the loop over the rounds. -/
structure VerifierState (F : Type) (size : Nat) where
  received : List (Univariate F size)
  challenges : List F
  target : F
  sep : Separator F
  verified : Bool

/-- `check_sum`.  The second value is not multiplied by the indicator.
`/repo/co-noir/ultrahonk/src/decider/sumcheck/sumcheck_round_verifier.rs:55-69` -/
def checkSum {k : Nat} (target : F) (g : Univariate F (k + 2)) (indicator : F) : Bool :=
  target = (1 - indicator) * target + indicator * g 0 + g 1

/-- `compute_next_target_sum`.  `/repo/co-noir/ultrahonk/src/decider/sumcheck/sumcheck_round_verifier.rs:43-53` -/
def nextTargetSum {k : Nat} (target : F) (g : Univariate F (k + 1)) (u indicator : F) : Except Err F := do
  let v ← g.evaluate u
  pure ((1 - indicator) * target + indicator * v)

/-- A round of the verifier.  `/repo/co-noir/ultrahonk/src/decider/sumcheck/sumcheck_verifier.rs:56-82` -/
def verifierRound {k : Nat} (ch : List (Univariate F (k + 2)) → F) (univariates : List (Univariate F (k + 2)))
    (st : VerifierState F (k + 2)) (indicator : F) : Except Err (VerifierState F (k + 2)) :=
  match univariates[st.received.length]? with
  | none => .error (.err "proof too small")
  | some g => do
    let u := ch (st.received ++ [g])
    let checked := checkSum st.target g indicator
    let target ← nextTargetSum st.target g u indicator
    let sep ← st.sep.partiallyEvaluateWithPadding u indicator
    pure ⟨st.received ++ [g], st.challenges ++ [u], target, sep, st.verified && checked⟩

/-- `sumcheck_verify` without zero knowledge; all padding indicators are one.
`/repo/co-noir/ultrahonk/src/decider/sumcheck/sumcheck_verifier.rs:27-133`, `/repo/co-noir/ultrahonk/src/decider/decider_verifier.rs:76` -/
def sumcheckVerify (p : Params F) (alphas betas : List F) (ch : List (Univariate F 8) → F) (virtualLogN : Nat)
    (proof : SumcheckProof F 8) : Except Err Bool := do
  let st ← (List.replicate virtualLogN (1 : F)).foldlM (verifierRound (k := 6) ch proof.univariates)
    ⟨[], [], 0, Separator.newWithoutProducts betas, true⟩
  let value ← fullRelationValue p proof.evaluations st.sep alphas
  pure (st.verified && decide (value = st.target))

end Verif.Honk
