import Verif.Shamir.Rng

/-!
# Model: Shamir network operations and arithmetic

Models `/repo/mpc-core/src/protocols/shamir/network.rs`, `/repo/mpc-core/src/protocols/shamir/arithmetic.rs`,
`/repo/mpc-core/src/protocols/shamir/pointshare.rs` and `shamir/poly.rs`.

A share is the wrapped field element (or point) itself: `ShamirPrimeFieldShare` and `ShamirPointShare`
are transparent wrappers (`shamir/arithmetic/types.rs`, `shamir/pointshare/types.rs`).
-/

namespace Verif.Shamir

open MPC (bail panicWith)

variable {n : Nat} {F V R S M : Type} [Field F] [AddCommGroup V] [Module F V]

/-! ## Network -/

/-- `/repo/mpc-core/src/protocols/shamir/network.rs:60-92` -/
def broadcast {α : Type} [Codec M α] (data : α) : MPC (Fin n) S M Err (List α) := do
  let id : Fin n ← MPC.netId
  ((List.finRange n).filter (· ≠ id)).forM fun other => MPC.send other data
  (List.finRange n).mapM fun other => if other ≠ id then MPC.recv other else pure data

/-- `/repo/mpc-core/src/protocols/shamir/network.rs:96-126` -/
def broadcastNext {α : Type} [Codec M α] (num : Nat) (data : α) : MPC (Fin n) S M Err (List α) := do
  let id : Fin n ← MPC.netId
  (List.range (num - 1)).forM fun s => MPC.send (fwd id (s + 1)) data
  let rest ← (List.range (num - 1)).mapM fun r => (MPC.recv (back id (r + 1)) : MPC (Fin n) S M Err α)
  pure (data :: rest)

/-- A party by number; the network rejects numbers that are no party.
`/repo/mpc-net/src/lib.rs:34-63` -/
def party (k : Nat) : MPC (Fin n) S M Err (Fin n) :=
  if h : k < n then pure ⟨k, h⟩ else bail "no such party"

/-- The king's accumulation of the (masked) shares of parties `0..=2t`.
`/repo/mpc-core/src/protocols/shamir/network.rs:174-195`, for points `264-274` -/
def kingAccumulate [Codec M (List V)] (lagrange : List F) (inputs : List V) :
    MPC (Fin n) S M Err (List V) :=
  lagrange.zipIdx.foldlM (fun (acc : List V) (x : F × Nat) => do
    let (l, other) := x
    if other = 0 then pure (List.zipWith (fun acc m => acc + l • m) acc inputs)
    else
      let other ← party other
      let r : List V ← recvMany other
      if r.length ≠ inputs.length then
        bail "During execution of degree_reduce_vec in MPC: Invalid number of elements received"
      else pure (List.zipWith (fun acc m => acc + l • m) acc r))
    (List.replicate inputs.length 0)

/-- The king opens the masked values and shares them again with zeros for the last `t` parties.
`/repo/mpc-core/src/protocols/shamir/network.rs:171-236`; for points `262-306`, where the vectors have one
element and `recv_from` reports a wrong length. `KING_ID = 0`. -/
def kingReshare [Codec M (List V)] (inputs : List V) : ShamirM n R F M (List V) := do
  let s ← MPC.get
  let id : Fin n ← MPC.netId
  let numNonZero := n - s.rng.threshold
  if id.val = 0 then
    let acc ← kingAccumulate s.mulLagrange2T inputs
    let polys := acc.map (polyWithZerosFromPrecomputed · s.mulReconstructWithZeros)
    (List.range numNonZero).foldlM (fun (mine : List V) (k : Nat) => do
      let vals := polys.map (evaluatePoly · ((k + 1 : Nat) : F))
      if k = id.val then pure vals
      else
        let dst ← party k
        sendMany dst vals
        pure mine) []
  else do
    if id.val ≤ s.rng.threshold * 2 then
      let king ← party 0
      sendMany king inputs
    if id.val < numNonZero then
      let king ← party 0
      let r : List V ← recvMany king
      if r.length ≠ inputs.length then
        bail "During execution of degree_reduce_vec in MPC: Invalid number of elements received"
      else pure r
    else pure (List.replicate inputs.length 0)

/-- `/repo/mpc-core/src/protocols/shamir/network.rs:150-242` -/
def degreeReduceMany [Sample R F] [Codec M (List F)] (inputs : List F) :
    ShamirM n R F M (List F) := do
  let masked ← inputs.mapM fun (inp : F) => do
    let (rT, r2T) ← getPair
    pure (inp + r2T, rT)
  let shares ← kingReshare (masked.map Prod.fst)
  pure (List.zipWith (· - ·) shares (masked.map Prod.snd))

/-- `/repo/mpc-core/src/protocols/shamir/network.rs:130-147` -/
def degreeReduce [Sample R F] [Codec M (List F)] (input : F) : ShamirM n R F M F := do
  let res ← degreeReduceMany [input]
  match res with
  | [x] => pure x
  | _ => bail "Expected 1 element, got more"

/-- `/repo/mpc-core/src/protocols/shamir/network.rs:246-309`; `gen` is the generator of the curve. -/
def degreeReducePoint [Sample R F] [Codec M (List F)] [Codec M (List V)] (gen : V) (input : V) :
    ShamirM n R F M V := do
  let (rT, r2T) ← getPair
  let res ← kingReshare [input + (r2T : F) • gen]
  match res with
  | [x] => pure (x - (rT : F) • gen)
  | _ => bail "Expected 1 element, got more"

/-! ## Local operations

`/repo/mpc-core/src/protocols/shamir/arithmetic.rs` and `/repo/mpc-core/src/protocols/shamir/pointshare.rs`. -/

/-- `/repo/mpc-core/src/protocols/shamir/arithmetic.rs:18-25`, `/repo/mpc-core/src/protocols/shamir/pointshare.rs:22-24`, `32-34` -/
def add (a b : V) : V := a + b
/-- `/repo/mpc-core/src/protocols/shamir/arithmetic.rs:28-35`, `/repo/mpc-core/src/protocols/shamir/pointshare.rs:27-29`, `37-39` -/
def sub (a b : V) : V := a - b
/-- `/repo/mpc-core/src/protocols/shamir/arithmetic.rs:38-42` -/
def subVec (a b : List V) : List V := List.zipWith (· - ·) a b ++ a.drop b.length
/-- `/repo/mpc-core/src/protocols/shamir/arithmetic.rs:55-59` -/
def addVec (a b : List V) : List V := List.zipWith (· + ·) a b ++ a.drop b.length
/-- `/repo/mpc-core/src/protocols/shamir/arithmetic.rs:45-52`, `/repo/mpc-core/src/protocols/shamir/pointshare.rs:42-44`, `52-57` -/
def addPublic (a : V) (p : V) : V := a + p
/-- `/repo/mpc-core/src/protocols/shamir/pointshare.rs:47-49`, `60-65` -/
def subPublic (a : V) (p : V) : V := a - p
/-- `/repo/mpc-core/src/protocols/shamir/arithmetic.rs:100-107`, `/repo/mpc-core/src/protocols/shamir/pointshare.rs:78-83` -/
def mulPublic (a : V) (p : F) : V := p • a
/-- `/repo/mpc-core/src/protocols/shamir/arithmetic.rs:175-177` -/
def neg (a : V) : V := -a
/-- `/repo/mpc-core/src/protocols/shamir/arithmetic.rs:224-231`, `/repo/mpc-core/src/protocols/shamir/pointshare.rs:113-115` -/
def promote (v : V) : V := v
/-- `/repo/mpc-core/src/protocols/shamir/pointshare.rs:68-75` -/
def scalarMulPublicPoint (shared : F) (pub : V) : V := shared • pub
/-- `/repo/mpc-core/src/protocols/shamir/pointshare.rs:97-99`, `/repo/mpc-core/src/protocols/shamir/arithmetic.rs:73-79` -/
def localMul (a : V) (b : F) : V := b • a

/-- `/repo/mpc-core/src/protocols/shamir/arithmetic.rs:73-79`; `zip_eq` panics on different lengths (`none`). -/
def localMulVec (a b : List F) : Option (List F) :=
  if a.length = b.length then some (List.zipWith (· * ·) a b) else none

/-- `/repo/mpc-core/src/protocols/shamir/arithmetic.rs:120-129` -/
def divSharedByPublic [DecidableEq F] (shared : F) (p : F) : Except Err F :=
  if p = 0 then .error (.err "Cannot invert zero") else .ok (mulPublic shared p⁻¹)

/-- Multi-scalar multiplication with public points: `∑ sᵢ • Pᵢ`. The library routine computes the sum
(assumed); the conversions between affine and projective coordinates are the identity here.
`/repo/mpc-core/src/protocols/shamir/pointshare.rs:207-225` -/
def msmPublicPoints (points : List V) (scalars : List F) : V :=
  (List.zipWith (fun p s => s • p) points scalars).sum

/-! ## Opening -/

/-- `/repo/mpc-core/src/protocols/shamir/arithmetic.rs:180-188`, `/repo/mpc-core/src/protocols/shamir/pointshare.rs:118-126` -/
def openShare [Codec M V] (a : V) : ShamirM n R F M V := do
  let s ← MPC.get
  let rcv ← broadcastNext (s.rng.threshold + 1) a
  pure (reconstruct rcv s.openLagrangeT)

/-- Opening of a share of degree `2t`. `/repo/mpc-core/src/protocols/shamir/pointshare.rs:102-110` and the second half of
`/repo/mpc-core/src/protocols/shamir/arithmetic.rs:250-259` -/
def openHalf [Codec M V] (a : V) : ShamirM n R F M V := do
  let s ← MPC.get
  let rcv ← broadcastNext (2 * s.rng.threshold + 1) a
  pure (reconstruct rcv s.openLagrange2T)

/-- Transposition of the received vectors into a table with `len` rows: writing into a row that does
not exist panics, entries never written stay zero. `/repo/mpc-core/src/protocols/shamir/arithmetic.rs:200-206` -/
def transpose (len : Nat) (rcv : List (List V)) : MPC (Fin n) S M Err (List (List V)) :=
  if rcv.any (fun r => decide (len < r.length)) then panicWith "index out of bounds"
  else pure ((List.range len).map fun i => rcv.map fun r => r.getD i 0)

/-- `/repo/mpc-core/src/protocols/shamir/arithmetic.rs:191-213`, `/repo/mpc-core/src/protocols/shamir/pointshare.rs:129-151` -/
def openVec [Codec M (List V)] (a : List V) : ShamirM n R F M (List V) := do
  let s ← MPC.get
  let rcv ← broadcastNext (s.rng.threshold + 1) a
  let rows ← transpose a.length rcv
  pure (rows.map (reconstruct · s.openLagrangeT))

/-- `/repo/mpc-core/src/protocols/shamir/pointshare.rs:154-165` -/
def openPointAndField [Codec M (V × F)] (a : V) (b : F) : ShamirM n R F M (V × F) := do
  let s ← MPC.get
  let rcv ← broadcastNext (s.rng.threshold + 1) (a, b)
  pure (reconstruct (rcv.map Prod.fst) s.openLagrangeT, reconstruct (rcv.map Prod.snd) s.openLagrangeT)

/-- `/repo/mpc-core/src/protocols/shamir/pointshare.rs:168-204` -/
def openPointAndFieldMany [Codec M (List V × List F)] (a : List V) (b : List F) :
    ShamirM n R F M (List V × List F) := do
  let s ← MPC.get
  let rcv ← broadcastNext (s.rng.threshold + 1) (a, b)
  let rowsP ← transpose a.length (rcv.map Prod.fst)
  let rowsF ← transpose b.length (rcv.map Prod.snd)
  pure (rowsP.map (reconstruct · s.openLagrangeT), rowsF.map (reconstruct · s.openLagrangeT))

/-! ## Multiplication, inversion -/

/-- `/repo/mpc-core/src/protocols/shamir/arithmetic.rs:62-70` -/
def mul [Sample R F] [Codec M (List F)] (a b : F) : ShamirM n R F M F := degreeReduce (a * b)

/-- `/repo/mpc-core/src/protocols/shamir/arithmetic.rs:82-97` -/
def mulVec [Sample R F] [Codec M (List F)] (a b : List F) : ShamirM n R F M (List F) :=
  degreeReduceMany (List.zipWith (· * ·) a b)

/-- `/repo/mpc-core/src/protocols/shamir/pointshare.rs:86-94` -/
def scalarMul [Sample R F] [Codec M (List F)] [Codec M (List V)] (gen : V) (a : V) (b : F) :
    ShamirM n R F M V := degreeReducePoint gen (localMul a b)

/-- `/repo/mpc-core/src/protocols/shamir/arithmetic.rs:250-259` -/
def mulOpen [Codec M F] (a b : F) : ShamirM n R F M F := openHalf (a * b)

/-- `/repo/mpc-core/src/protocols/shamir/arithmetic.rs:262-290` -/
def mulOpenVec [Codec M (List F)] (a b : List F) : ShamirM n R F M (List F) := do
  let s ← MPC.get
  let rcv ← broadcastNext (2 * s.rng.threshold + 1) (List.zipWith (· * ·) a b)
  let rows ← transpose a.length rcv
  pure (rows.map (reconstruct · s.openLagrange2T))

/-- `/repo/mpc-core/src/protocols/shamir/arithmetic.rs:142-154` -/
def inv [DecidableEq F] [Sample R F] [Codec M F] [Codec M (List F)] (a : F) : ShamirM n R F M F := do
  let r ← rand
  let y ← mulOpen a r
  if y = 0 then bail "Cannot compute inverse of zero"
  else pure (mulPublic r y⁻¹)

/-- `/repo/mpc-core/src/protocols/shamir/arithmetic.rs:157-172` -/
def invVec [DecidableEq F] [Sample R F] [Codec M (List F)] (a : List F) :
    ShamirM n R F M (List F) := do
  let r ← a.mapM fun (_ : F) => (rand : ShamirM n R F M F)
  let y ← mulOpenVec a r
  if y.any (fun y => decide (y = 0)) then bail "Cannot compute inverse of zero"
  else pure (List.zipWith (fun (r y : F) => mulPublic r y⁻¹) r y)

/-- `/repo/mpc-core/src/protocols/shamir/arithmetic.rs:110-117` -/
def div [DecidableEq F] [Sample R F] [Codec M F] [Codec M (List F)] (a b : F) :
    ShamirM n R F M F := do
  let i ← inv b
  mul a i

/-- `/repo/mpc-core/src/protocols/shamir/arithmetic.rs:132-139` -/
def divPublicByShared [DecidableEq F] [Sample R F] [Codec M F] [Codec M (List F)] (p : F) (b : F) :
    ShamirM n R F M F := do
  let i ← inv b
  pure (mulPublic i p)

end Verif.Shamir
