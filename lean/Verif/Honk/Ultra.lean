import Verif.Honk.BuildFill
import Verif.Honk.CoOink
import Verif.Props.HonkWhole
import Verif.Props.HonkShplemini

/-!
# The whole prover and the whole verifier of UltraHonk

Models `/repo/co-noir/ultrahonk/src/ultra_prover.rs`, `ultra_verifier.rs`, the order of the rounds in `oink/oink_prover.rs` and
`oink/oink_verifier.rs`, `decider/decider_prover.rs`, `decider/decider_verifier.rs`, and `create_vk` of
`/repo/co-noir/co-builder/src/ultra_builder.rs`, without zero knowledge.  The transcript is replaced by functions from what was sent
so far to the challenges, and the proof is not flattened.
-/

namespace Verif.Honk

variable {F G : Type} [Field F] [DecidableEq F] [AddCommGroup G] [Module F G]

/-- `create_prover_instance`: the key and the columns that are known before the first challenge.
`/repo/co-noir/co-builder/src/keys/plain_proving_key.rs:20-120` -/
def proverInstance (toNat : F → Nat) (ops : List (Acvm.Opcode F)) (inputs : List Nat) (witness : List F) :
    Except Err (Key F × (Col → Nat → F)) := do
  let c ← Draft.createFull toNat ops inputs witness
  let key ← createKey (c.1.full c.2)
  let entries ← tableColumns (dummyTables (F := F)) key.size
  let reads ← readCounts toNat (dummyTables (F := F)) key.size
  pure (key, keyTable c.1 key entries reads)

/-- `VerifyingKeyBarretenberg`.  `/repo/co-noir/co-noir-common/src/keys/verification_key.rs:77-82` -/
structure UltraVk (G : Type) where
  logSize : Nat
  numPublic : Nat
  publicOffset : Nat
  commitments : Col → G

/-- `create_vk_barretenberg`, of the circuit without a witness.  `/repo/co-noir/co-builder/src/ultra_builder.rs:72-100` -/
def createVk (toNat : F → Nat) (crs : List G) (ops : List (Acvm.Opcode F)) (inputs : List Nat) : Except Err (UltraVk G) := do
  let k ← proverInstance toNat ops inputs []
  let cs ← Col.precomputed.mapM fun c => plainPcs.commit crs (columns k.1.size k.2 c)
  pure ⟨Nat.log2 k.1.size, k.1.publicInputs.length, k.1.publicOffset, fun c => cs.getD (Col.precomputed.idxOf c) 0⟩

/-- The challenges as functions of the verification key, whose hash is the first message, the public inputs and the points sent so far,
and in the end of the univariates and the proof of the sumcheck.  `/repo/co-noir/ultrahonk/src/oink/oink_prover.rs:434-605`,
`/repo/co-noir/ultrahonk/src/oink/oink_verifier.rs:42-190` (the hash itself is not modelled) -/
structure UltraChallenges (F G : Type) where
  eta : UltraVk G → List F → List G → F
  betaGamma : UltraVk G → List F → List G → F × F
  alpha : UltraVk G → List F → List G → F
  gate : UltraVk G → List F → List G → F
  sumcheck : UltraVk G → List F → List G → List (Univariate F 8) → F
  opening : UltraVk G → List F → List G → SumcheckProof F 8 → PcsChallenges F G

/-- The proof without the public inputs of the program: the values of the pairing point, the commitments in the order in which they are
sent, the sumcheck and the opening.  `/repo/co-noir/ultrahonk/src/oink/oink_prover.rs:434-605` -/
structure UltraProof (F G : Type) where
  pairing : List F
  wl : G
  wr : G
  wo : G
  counts : G
  tags : G
  w4 : G
  inverses : G
  zPerm : G
  sumcheck : SumcheckProof F 8
  opening : PcsProof F G

/-- The points before the challenge `η`.  `/repo/co-noir/ultrahonk/src/oink/oink_prover.rs:434-605` -/
def UltraProof.points1 (p : UltraProof F G) : List G := [p.wl, p.wr, p.wo]

/-- The points before the challenges `β` and `γ`.  `/repo/co-noir/ultrahonk/src/oink/oink_prover.rs:434-605` -/
def UltraProof.points2 (p : UltraProof F G) : List G := p.points1 ++ [p.counts, p.tags, p.w4]

/-- The points before the challenge `α`.  `/repo/co-noir/ultrahonk/src/oink/oink_prover.rs:434-605` -/
def UltraProof.points3 (p : UltraProof F G) : List G := p.points2 ++ [p.inverses, p.zPerm]

/-- The fourth wire and its shift after `compute_w4`.  `/repo/co-noir/ultrahonk/src/decider/types.rs:150-164` -/
def withW4 (n : Nat) (w4 : Nat → F) (table : Col → Nat → F) : Col → Nat → F
  | .w4 => w4
  | .w4Shift => fun i => if i + 1 < n then w4 (i + 1) else 0
  | c => table c

/-- The number of rounds of the sumcheck: `CONST_PROOF_SIZE_LOG_N`, or the number of variables.
`/repo/co-noir/ultrahonk/src/ultra_prover.rs:52-56`, `/repo/co-noir/ultrahonk/src/lib.rs:20` -/
def virtualLogN (padding : Bool) (logN : Nat) : Nat := if padding then 25 else logN

/-- The constants and challenges of the relations.  `/repo/co-noir/ultrahonk/src/oink/oink_verifier.rs:42-190` -/
def ultraParams (consts : Params F) (η β γ δ : F) : Params F :=
  { consts with eta1 := η, eta2 := η * η, eta3 := η * η * η, beta := β, gamma := γ, publicInputDelta := δ }

/-- `UltraHonk::prove` with `Oink::prove` and `Decider::prove`, for circuits without memory records.  The result are the proof and the
public inputs of the program.  `/repo/co-noir/ultrahonk/src/ultra_prover.rs:31-64`,
`/repo/co-noir/ultrahonk/src/oink/oink_prover.rs:434-605`, `/repo/co-noir/ultrahonk/src/decider/decider_prover.rs:139-162` -/
def ultraProve (ch : UltraChallenges F G) (padding : Bool) (consts : Params F) (crs : List G) (vk : UltraVk G) (key : Key F)
    (table : Col → Nat → F) : Except Err (UltraProof F G × List F) := do
  let commit := fun f => plainPcs.commit crs ((List.range key.size).map f)
  let pub := key.publicInputs
  let wl ← commit (table .wl)
  let wr ← commit (table .wr)
  let wo ← commit (table .wo)
  let η := ch.eta vk pub [wl, wr, wo]
  let w4 ← computeW4 ⟨η, η * η, η * η * η⟩ key.size [] [] (wiresOf table)
  let table := withW4 key.size w4 table
  let counts ← commit (table .lookupReadCounts)
  let tags ← commit (table .lookupReadTags)
  let w4 ← commit (table .w4)
  let βγ := ch.betaGamma vk pub [wl, wr, wo, counts, tags, w4]
  let inv := lookupInverses βγ.1 βγ.2 table
  let inverses ← commit inv
  let δ ← publicInputDelta βγ.1 βγ.2 pub key.publicOffset
  let z ← grandProduct key (wiresOf table) βγ.1 βγ.2
  let zPerm ← commit z
  let points := [wl, wr, wo, counts, tags, w4, inverses, zPerm]
  let α := ch.alpha vk pub points
  let d := Nat.log2 key.size
  let D := virtualLogN padding d
  let full := complete key.size z inv table
  let s ← sumcheckProve (ultraParams consts η βγ.1 βγ.2 δ) (alphaPowers α) (gateChallenges (ch.gate vk pub points) D) (ch.sumcheck vk pub points)
    key.size D (columns key.size full)
  let us := challenges (ch.sumcheck vk pub points) s.univariates
  let o ← shpleminiProve plainPcs (ch.opening vk pub points s) crs d us (Col.precomputed.map (columns key.size full))
    (Col.witness.map (columns key.size full)) (Col.toBeShifted.map (columns key.size full))
  let num := pub.length - 8
  pure (⟨pub.drop num, wl, wr, wo, counts, tags, w4, inverses, zPerm, s, o⟩, pub.take num)

/-- The commitments to the columns, from the key and from the proof.
`/repo/co-noir/ultrahonk/src/decider/types.rs:201-203` -/
def ultraCommitments (vk : UltraVk G) (p : UltraProof F G) : Col → G
  | .wl => p.wl
  | .wr => p.wr
  | .wo => p.wo
  | .w4 => p.w4
  | .zPerm => p.zPerm
  | .lookupInverses => p.inverses
  | .lookupReadCounts => p.counts
  | .lookupReadTags => p.tags
  | c => vk.commitments c

/-- `UltraHonk::verify` with `OinkVerifier::verify` and `DeciderVerifier::verify`.  The verifier reads as many public inputs as the key
says; a proof with another number of them is taken to be rejected when it is read.
`/repo/co-noir/ultrahonk/src/ultra_verifier.rs:22-60`, `/repo/co-noir/ultrahonk/src/oink/oink_verifier.rs:42-190`,
`/repo/co-noir/ultrahonk/src/decider/decider_verifier.rs:71-170` -/
def ultraVerify {H T : Type} [AddCommGroup H] [Module F H] [AddCommGroup T] [Module F T] [DecidableEq T] (e : G →ₗ[F] H →ₗ[F] T)
    (gen : G) (g2 g2x : H) (ch : UltraChallenges F G) (padding : Bool) (consts : Params F) (vk : UltraVk G) (proof : UltraProof F G)
    (publicInputs : List F) : Except Err Bool := do
  let pub := publicInputs ++ proof.pairing
  if pub.length ≠ vk.numPublic then .error (.err "ProofTooSmall")
  else
    let η := ch.eta vk pub proof.points1
    let βγ := ch.betaGamma vk pub proof.points2
    let δ ← publicInputDelta βγ.1 βγ.2 pub vk.publicOffset
    let α := ch.alpha vk pub proof.points3
    let D := virtualLogN padding vk.logSize
    let verified ← sumcheckVerify (ultraParams consts η βγ.1 βγ.2 δ) (alphaPowers α) (gateChallenges (ch.gate vk pub proof.points3) D)
      (ch.sumcheck vk pub proof.points3) D proof.sumcheck
    if verified then
      shpleminiVerify e gen g2 g2x (ch.opening vk pub proof.points3 proof.sumcheck)
        (challenges (ch.sumcheck vk pub proof.points3) proof.sumcheck.univariates) (ultraCommitments vk proof) proof.sumcheck.evaluations
        proof.opening
    else pure false

end Verif.Honk
