import Verif.Shamir.Shamir
import Verif.Net.MPC
import Mathlib.Data.List.FinRange

/-!
# Model: Shamir preprocessing (correlated randomness) and protocol state

Models `/repo/mpc-core/src/protocols/shamir.rs:24-185` and
`/repo/mpc-core/src/protocols/shamir/rngs.rs`.

The number of parties is the `n` of the party type `Fin n` (the code passes `num_parties` around and
assumes that it is the size of the network).
-/

namespace Verif.Shamir

open MPC (bail panicWith)

variable {n : Nat} {F V R S M Seed : Type} [Field F] [AddCommGroup V] [Module F V]

/-- `(id + k) % num_parties` -/
def fwd (id : Fin n) (k : Nat) : Fin n := ⟨(id.val + k) % n, Nat.mod_lt _ id.pos⟩

/-- `(id + num_parties - k) % num_parties` -/
def back (id : Fin n) (k : Nat) : Fin n := ⟨(id.val + n - k) % n, Nat.mod_lt _ id.pos⟩

/-- The evaluation point of a party, as an index: `id + 1`. -/
def point (id : Fin n) : Nat := id.val + 1

/-- `unwrap` / `expect` inside protocol code. -/
def unwrap {α : Type} : Option α → MPC (Fin n) S M Err α
  | some x => pure x
  | none => panicWith "called `Option::unwrap()` on a `None` value"

/-! ## Network helpers -/

/-- `/repo/mpc-core/src/protocols/shamir/network.rs:29-35` -/
def sendMany {α : Type} [Codec M (List α)] (dst : Fin n) (data : List α) :
    MPC (Fin n) S M Err Unit := MPC.send dst data

/-- `/repo/mpc-core/src/protocols/shamir/network.rs:22-26` -/
def sendTo {α : Type} [Codec M (List α)] (dst : Fin n) (x : α) : MPC (Fin n) S M Err Unit :=
  sendMany dst [x]

/-- `/repo/mpc-core/src/protocols/shamir/network.rs:50-56` -/
def recvMany {α : Type} [Codec M (List α)] (frm : Fin n) : MPC (Fin n) S M Err (List α) :=
  MPC.recv frm

/-- `/repo/mpc-core/src/protocols/shamir/network.rs:39-46` -/
def recvFrom {α : Type} [Codec M (List α)] (frm : Fin n) : MPC (Fin n) S M Err α := do
  let res : List α ← recvMany frm
  match res with
  | [x] => pure x
  | _ => bail "Expected 1 element, got more"

/-! ## The generator of correlated randomness -/

/-- `/repo/mpc-core/src/protocols/shamir/rngs.rs:12-23`. `rngs j` is the generator that `get_rng_mut(j)`
(`rngs.rs:205-211`) returns: the party's own `rng` for `j = id`, and the entry of `shared_rngs` for
party `j` (a vector that skips the own position) otherwise. `threshold` is kept; `num_parties` is `n`.
-/
structure ShamirRng (n : Nat) (R F : Type) where
  id : Fin n
  rngs : Fin n → R
  threshold : Nat
  precompT : List (List F)
  precomp2T : List (List F)
  matrix : List (Fin n → F)
  rT : List F
  r2T : List F

namespace ShamirRng

/-- Draw `k` elements from the generator `get_rng_mut(other)`.
`/repo/mpc-core/src/protocols/shamir/rngs.rs:205-211` and the loops `219-222`, `232-235` -/
def draw [Sample R F] (g : ShamirRng n R F) (other : Fin n) (k : Nat) : List F × ShamirRng n R F :=
  let (vs, r) := sampleN (g.rngs other) k
  (vs, { g with rngs := Function.update g.rngs other r })

/-- `for r in output.iter_mut() { r[send_id] = F::rand(rng) }`: one column of the received shares.
`/repo/mpc-core/src/protocols/shamir/rngs.rs:219-222` -/
def fillFrom [Sample R F] (st : ShamirRng n R F × List (Fin n → F)) (sid : Fin n) :
    ShamirRng n R F × List (Fin n → F) :=
  let (vs, g) := st.1.draw sid st.2.length
  (g, List.zipWith (fun r v => Function.update r sid v) st.2 vs)

/-- `/repo/mpc-core/src/protocols/shamir/rngs.rs:213-224` -/
def receiveSeededPrev [Sample R F] (g : ShamirRng n R F) (degree : Nat) (out : List (Fin n → F)) :
    ShamirRng n R F × List (Fin n → F) :=
  (List.range degree).foldl (fun st i =>
    let sid := back g.id (i + 1)
    if sid > g.id then st else fillFrom st sid) (g, out)

/-- `/repo/mpc-core/src/protocols/shamir/rngs.rs:226-237` -/
def receiveSeededNext [Sample R F] (g : ShamirRng n R F) (degree : Nat) (out : List (Fin n → F)) :
    ShamirRng n R F × List (Fin n → F) :=
  (List.range degree).foldl (fun st i =>
    let sid := back g.id (i + 1)
    if sid < g.id then st else fillFrom st sid) (g, out)

/-- Draw the shares of the next `degree` parties, appending one value to every row.
`/repo/mpc-core/src/protocols/shamir/rngs.rs:347-356` (rows written in order instead of appended),
`260-266` -/
def dealShares [Sample R F] (g : ShamirRng n R F) (degree : Nat) (shares : List (List F)) :
    ShamirRng n R F × List (List F) :=
  (List.range degree).foldl (fun (g, shares) i =>
    let (vs, g') := g.draw (fwd g.id (i + 1)) shares.length
    (g', List.zipWith (fun s v => s ++ [v]) shares vs)) (g, shares)

/-- Write one column. `/repo/mpc-core/src/protocols/shamir/rngs.rs:326-328`, `286-288` -/
def setCol (sid : Fin n) : List (Fin n → F) → List F → List (Fin n → F)
  | r :: rs, s :: ss => Function.update r sid s :: setCol sid rs ss
  | rs, _ => rs

/-- `/repo/mpc-core/src/protocols/shamir/rngs.rs:284-289`, `369-372` -/
def setMyShare (g : ShamirRng n R F) (out : List (Fin n → F)) (polys : List (List F)) :
    List (Fin n → F) :=
  setCol g.id out (polys.map fun p => evaluatePoly p ((point g.id : Nat) : F))

/-- `/repo/mpc-core/src/protocols/shamir/rngs.rs:291-311`. The subtraction `num_parties - seeded - 1`
underflows if `seeded ≥ num_parties`: a panic. -/
def sendShareOfRandomness [Codec M (List F)] (g : ShamirRng n R F) (seeded : Nat)
    (polys : List (List F)) : MPC (Fin n) S M Err Unit :=
  if n < seeded + 1 then panicWith "attempt to subtract with overflow" else
  (List.range (n - seeded - 1)).forM fun i =>
    let rcv := fwd g.id (i + 1 + seeded)
    sendMany rcv (polys.map fun p => evaluatePoly p ((point rcv : Nat) : F))

/-- `/repo/mpc-core/src/protocols/shamir/rngs.rs:313-331` -/
def receiveShareOfRandomness [Codec M (List F)] (g : ShamirRng n R F) (seeded : Nat)
    (out : List (Fin n → F)) : MPC (Fin n) S M Err (List (Fin n → F)) :=
  if n < seeded + 1 then panicWith "attempt to subtract with overflow" else
  (List.range (n - seeded - 1)).foldlM (fun (out : List (Fin n → F)) i => do
    let sid := back g.id (seeded + (i + 1))
    let shares : List F ← recvMany sid
    pure (setCol sid out shares)) out

/-- The local part of `random_double_share`: everything before the messages.
`/repo/mpc-core/src/protocols/shamir/rngs.rs:340-384`. `p[0]` of an (always non-empty) polynomial is read
with default `0`. -/
def doubleShareLocal [Sample R F] (g : ShamirRng n R F) (amount : Nat) :
    ShamirRng n R F × (List (Fin n → F) × List (Fin n → F)) × (List (List F) × List (List F)) :=
  let t := g.threshold
  let zeros : List (Fin n → F) := List.replicate amount (fun _ => 0)
  let (g, rcvT) := g.receiveSeededNext (t + 1) zeros
  let (g, shares) := g.dealShares (t + 1) (List.replicate amount [])
  let (g, rcvT) := g.receiveSeededPrev (t + 1) rcvT
  let polysT := shares.map (interpolateFromPrecomputed · g.precompT)
  let rcvT := g.setMyShare rcvT polysT
  let rands := polysT.map (·.getD 0 0)
  let (g, rcv2T) := g.receiveSeededNext (t * 2) zeros
  let (g, shares2) := g.dealShares (t * 2) (rands.map fun r => [r])
  let polys2T := shares2.map (interpolateFromPrecomputed · g.precomp2T)
  let (g, rcv2T) := g.receiveSeededPrev (t * 2) rcv2T
  let rcv2T := g.setMyShare rcv2T polys2T
  (g, (rcvT, rcv2T), (polysT, polys2T))

/-- `/repo/mpc-core/src/protocols/shamir/rngs.rs:334-396` -/
def randomDoubleShare [Sample R F] [Codec M (List F)] (g : ShamirRng n R F) (amount : Nat) :
    MPC (Fin n) S M Err (ShamirRng n R F × List (Fin n → F) × List (Fin n → F)) := do
  let (g, (rcvT, rcv2T), (polysT, polys2T)) := g.doubleShareLocal amount
  sendShareOfRandomness g (g.threshold + 1) polysT
  sendShareOfRandomness g (g.threshold * 2) polys2T
  let rcvT ← receiveShareOfRandomness g (g.threshold + 1) rcvT
  let rcv2T ← receiveShareOfRandomness g (g.threshold * 2) rcv2T
  pure (g, rcvT, rcv2T)

/-- `/repo/mpc-core/src/protocols/shamir/rngs.rs:194-202` -/
def matmul (mat : List (Fin n → F)) (inp : Fin n → F) : List F :=
  mat.map fun row => (List.finRange n).foldl (fun res c => res + inp c * row c) 0

/-- `/repo/mpc-core/src/protocols/shamir/rngs.rs:401-428` -/
def bufferTriples [Sample R F] [Codec M (List F)] (g : ShamirRng n R F) (amount : Nat) :
    MPC (Fin n) S M Err (ShamirRng n R F) := do
  let (g, rcvT, rcv2T) ← randomDoubleShare g amount
  pure { g with
    rT := g.rT ++ rcvT.flatMap (matmul g.matrix)
    r2T := g.r2T ++ rcv2T.flatMap (matmul g.matrix) }

/-- `/repo/mpc-core/src/protocols/shamir/rngs.rs:69-71` -/
def sizePerBatch (g : ShamirRng n R F) : Nat := g.matrix.length

/-- `/repo/mpc-core/src/protocols/shamir/rngs.rs:74-96`; `none` is the panic. All generators are
advanced even if the call panics; a panic ends the party, so the state after it is not modelled. -/
def forkWithPairs [Sample R Seed] [Seedable R Seed] (g : ShamirRng n R F) (amount : Nat) :
    Option (ShamirRng n R F × ShamirRng n R F) :=
  if amount > g.rT.length then none
  else
    let draws : Fin n → Seed × R := fun j => Sample.sample (g.rngs j)
    some
      ({ g with rngs := fun j => Seedable.fromSeed (draws j).1
                rT := g.rT.take amount
                r2T := g.r2T.take amount },
       { g with rngs := fun j => (draws j).2
                rT := g.rT.drop amount
                r2T := g.r2T.drop amount })

end ShamirRng

/-- `/repo/mpc-core/src/protocols/shamir/rngs.rs:147-158` -/
def vandermonde (n : Nat) (F : Type) [Field F] (threshold : Nat) : List (Fin n → F) :=
  (fun _ => 1) :: (List.range threshold).map fun r => fun c => ((point c : Nat) : F) ^ (r + 1)

/-- The number of parties to which a party sends a seed.
`/repo/mpc-core/src/protocols/shamir/rngs.rs:108-113` -/
def seedsToSend (id : Fin n) : Nat :=
  let others := n - 1
  if others % 2 = 1 ∧ id.val < n / 2 then others / 2 + 1 else others / 2

/-- `/repo/mpc-core/src/protocols/shamir/rngs.rs:98-139`. The generators of all parties: entry `id` is
the own generator after drawing the seeds. Own slot and slots of parties never heard from would hold
the default seed; the result has the own generator in the own slot (see `ShamirRng`). -/
def getSharedRngs [Inhabited Seed] [Sample R Seed] [Seedable R Seed] [Codec M (List Seed)]
    (rng : R) : MPC (Fin n) S M Err (Fin n → R) := do
  let id : Fin n ← MPC.netId
  let send := seedsToSend id
  let receive := n - 1 - send
  let seeds : Fin n → Seed := fun _ => default
  let (seeds, rng) ← (List.range send).foldlM (fun (st : (Fin n → Seed) × R) off => do
    let rcv := fwd id (off + 1)
    let (seed, rng) := (Sample.sample st.2 : Seed × R)
    sendTo rcv seed
    pure (Function.update st.1 rcv seed, rng)) (seeds, rng)
  let seeds ← (List.range receive).foldlM (fun (seeds : Fin n → Seed) off => do
    let sid := back id (off + 1)
    let seed : Seed ← recvFrom sid
    pure (Function.update seeds sid seed)) seeds
  pure (Function.update (fun j => Seedable.fromSeed (seeds j)) id rng)

/-- `/repo/mpc-core/src/protocols/shamir/rngs.rs:26-66`, `239-247` -/
def newRng (F : Type) [Field F] [DecidableEq F] [Inhabited Seed] [Sample R Seed] [Seedable R Seed]
    [Codec M (List Seed)] (seed : Seed) (threshold : Nat) :
    MPC (Fin n) S M Err (ShamirRng n R F) := do
  let rng : R := Seedable.fromSeed seed
  let rngs ← getSharedRngs (Seed := Seed) rng
  let matrix := vandermonde n F threshold
  let id : Fin n ← MPC.netId
  let ids := (List.range (threshold + 1)).map fun i => point (fwd id (i + 1))
  let precompT ← unwrap (precomputeInterpolationPolys F ids)
  let ids2 := 0 :: (List.range (threshold * 2)).map fun i => point (fwd id (i + 1))
  let precomp2T ← unwrap (precomputeInterpolationPolys F ids2)
  pure { id, rngs, threshold, precompT, precomp2T, matrix, rT := [], r2T := [] }

/-- `usize::div_ceil` -/
def divCeil (a b : Nat) : Nat := (a + b - 1) / b

/-- `ShamirPreprocessing::new`; the seed comes from the operating system.
`/repo/mpc-core/src/protocols/shamir.rs:35-63` -/
def preprocessingNew (F : Type) [Field F] [DecidableEq F] [Inhabited Seed] [Sample R Seed]
    [Seedable R Seed] [Sample R F] [Codec M (List Seed)] [Codec M (List F)]
    (seed : Seed) (threshold amount : Nat) : MPC (Fin n) S M Err (ShamirRng n R F) :=
  if 2 * threshold + 1 > n then bail "Threshold too large for number of parties"
  else do
    let g ← newRng F seed threshold
    g.bufferTriples (divCeil amount g.sizePerBatch)

/-- `/repo/mpc-core/src/protocols/shamir.rs:106-119` (`id`, `num_parties` and `threshold` are those of
the generator) -/
structure ShamirState (n : Nat) (R F : Type) where
  rng : ShamirRng n R F
  openLagrangeT : List F
  openLagrange2T : List F
  mulLagrange2T : List F
  mulReconstructWithZeros : List F
  generationAmount : Nat

/-- The parties from which a party gets the shares for opening, itself first, as indices.
`/repo/mpc-core/src/protocols/shamir.rs:71-78` -/
def openPoints (id : Fin n) (num : Nat) : List Nat := (List.range num).map fun i => point (back id i)

/-- `From<ShamirPreprocessing> for ShamirState`; `none` is a panic.
`/repo/mpc-core/src/protocols/shamir.rs:66-103` -/
def ShamirState.ofPreprocessing [DecidableEq F] (g : ShamirRng n R F) :
    Option (ShamirState n R F) := do
  let t := g.threshold
  let openLagrangeT ← lagrangeFromCoeff F (openPoints g.id (t + 1))
  let openLagrange2T ← lagrangeFromCoeff F (openPoints g.id (2 * t + 1))
  let mulLagrange2T ← lagrangeFromCoeff F ((List.range (2 * t + 1)).map (· + 1))
  let numNonZero := n - t
  let mulReconstructWithZeros ←
    interpolationPolyFromZeroPoints F ((List.range (n - numNonZero)).map (numNonZero + 1 + ·))
  pure { rng := g, openLagrangeT, openLagrange2T, mulLagrange2T, mulReconstructWithZeros,
         generationAmount := 1024 }

/-- Protocol code on Shamir shares. -/
abbrev ShamirM (n : Nat) (R F M α : Type) := MPC (Fin n) (ShamirState n R F) M Err α

/-- `/repo/mpc-core/src/protocols/shamir.rs:127-143` -/
def getPair [Sample R F] [Codec M (List F)] : ShamirM n R F M (F × F) := do
  let s ← MPC.get
  if s.rng.rT.isEmpty then
    let g ← s.rng.bufferTriples s.generationAmount
    MPC.set { s with rng := g, generationAmount := s.generationAmount * 2 }
  let s ← MPC.get
  match s.rng.rT.getLast?, s.rng.r2T.getLast? with
  | some a, some b =>
    MPC.set { s with rng := { s.rng with rT := s.rng.rT.dropLast, r2T := s.rng.r2T.dropLast } }
    pure (a, b)
  | _, _ => panicWith "called `Option::unwrap()` on a `None` value"

/-- `/repo/mpc-core/src/protocols/shamir.rs:146-157` -/
def ensurePairs [Sample R F] [Codec M (List F)] (num : Nat) : ShamirM n R F M Unit := do
  let s ← MPC.get
  let present := s.rng.rT.length
  if present ≥ num then pure ()
  else
    let g ← s.rng.bufferTriples (divCeil (num - present) s.rng.sizePerBatch)
    MPC.set { s with rng := g }

/-- `/repo/mpc-core/src/protocols/shamir.rs:160-163` -/
def rand [Sample R F] [Codec M (List F)] : ShamirM n R F M F := do
  let (r, _) ← getPair
  pure r

/-- `/repo/mpc-core/src/protocols/shamir.rs:173-185`; the child takes the first `num` pairs. -/
def fork [Sample R Seed] [Seedable R Seed] (num : Nat) :
    ShamirM n R F M (ShamirState n R F) := do
  let s ← MPC.get
  match s.rng.forkWithPairs (Seed := Seed) num with
  | some (child, parent) => do
    MPC.set { s with rng := parent }
    pure { s with rng := child }
  | none => panicWith "not enough corr rand pairs"

end Verif.Shamir
