import Verif.Rep3.Party

/-!
# Correlated randomness and the protocol state of a party

Models `/repo/mpc-core/src/protocols/rep3/rngs.rs` and `Rep3State` of
`/repo/mpc-core/src/protocols/rep3.rs:42-133`.

The generator (`RngType` = ChaCha12, `/repo/mpc-core/src/lib.rs`) is an arbitrary type `R` of states
with arbitrary deterministic sampling functions.
-/

namespace Verif

/-- `rng.gen::<T>()`, `F::rand(rng)`: a deterministic function of the generator state.
`/repo/mpc-core/src/protocols/rep3/rngs.rs:110,130,184` -/
class Sample (R α : Type) where
  sample : R → α × R

/-- Filling a buffer with `n` elements at once (`fill_bytes` and interpretation of chunks).
`/repo/mpc-core/src/protocols/rep3/rngs.rs:137-156` -/
class SampleVec (R α : Type) where
  sampleVec : R → Nat → List α × R
  length_eq : ∀ r n, (sampleVec r n).1.length = n

/-- `SeedableRng::from_seed`. -/
class Seedable (R Seed : Type) where
  fromSeed : Seed → R

/-- Draw `n` values one after the other. `/repo/mpc-core/src/protocols/rep3/rngs.rs:166-167` -/
def sampleN {R α : Type} [Sample R α] : R → Nat → List α × R
  | r, 0 => ([], r)
  | r, n + 1 =>
    let (x, r) := Sample.sample r
    let (xs, r) := sampleN r n
    (x :: xs, r)

@[simp] theorem sampleN_length {R α : Type} [Sample R α] (r : R) (n : Nat) :
    (sampleN (α := α) r n).1.length = n := by
  induction n generalizing r with
  | zero => rfl
  | succ n ih => simp [sampleN, ih]

/-- `/repo/mpc-core/src/protocols/rep3/rngs.rs:83-86` -/
structure Rep3Rand (R : Type) where
  rng1 : R
  rng2 : R

/-- `/repo/mpc-core/src/protocols/rep3/rngs.rs:251-255` -/
structure BitComp (R : Type) where
  rng1 : R
  rng2 : R
  rng3 : Option R

/-- `/repo/mpc-core/src/protocols/rep3/rngs.rs:18-23` -/
structure CorrelatedRng (R : Type) where
  rand : Rep3Rand R
  bitcomp1 : BitComp R
  bitcomp2 : BitComp R

/-- `/repo/mpc-core/src/protocols/rep3/conversion.rs:27-33` -/
inductive A2BType where
  | direct | yao
  deriving DecidableEq, Repr

/-- `/repo/mpc-core/src/protocols/rep3.rs:43-52` -/
structure Rep3State (R : Type) where
  id : PartyID
  rngs : CorrelatedRng R
  rng : R
  a2bType : A2BType

section Draws

variable {R α : Type}

namespace Rep3Rand

/-- `/repo/mpc-core/src/protocols/rep3/rngs.rs:109-113` (`random_fes`), `126-133`
(`random_elements`), `183-187` (`random_ecs`), `190-194` (`random_uint`), `233-237`
(`random_seeds`): one draw from each generator. -/
def randomPair [Sample R α] (g : Rep3Rand R) : (α × α) × Rep3Rand R :=
  let (a, r1) := Sample.sample g.rng1
  let (b, r2) := Sample.sample g.rng2
  ((a, b), ⟨r1, r2⟩)

/-- `/repo/mpc-core/src/protocols/rep3/rngs.rs:103-106`, `116-123`, `177-180`: the difference of
one draw from each generator. -/
def masking [Sample R α] [Sub α] (g : Rep3Rand R) : α × Rep3Rand R :=
  let ((a, b), g) := g.randomPair (α := α)
  (a - b, g)

/-- `/repo/mpc-core/src/protocols/rep3/rngs.rs:137-156` -/
def maskingFieldVec [SampleVec R α] [Sub α] (g : Rep3Rand R) (n : Nat) : List α × Rep3Rand R :=
  let (a, r1) := SampleVec.sampleVec g.rng1 n
  let (b, r2) := SampleVec.sampleVec g.rng2 n
  (List.zipWith (· - ·) a b, ⟨r1, r2⟩)

/-- `/repo/mpc-core/src/protocols/rep3/rngs.rs:160-174` -/
def maskingVec [Sample R α] [Sub α] (g : Rep3Rand R) (n : Nat) : List α × Rep3Rand R :=
  let (a, r1) := sampleN g.rng1 n
  let (b, r2) := sampleN g.rng2 n
  (List.zipWith (· - ·) a b, ⟨r1, r2⟩)

/-- `/repo/mpc-core/src/protocols/rep3/rngs.rs:197-199`, `207-209`, `217-222` -/
def draw1 [Sample R α] (g : Rep3Rand R) : α × Rep3Rand R :=
  let (a, r1) := Sample.sample g.rng1
  (a, { g with rng1 := r1 })

/-- `/repo/mpc-core/src/protocols/rep3/rngs.rs:202-204`, `212-214`, `225-230` -/
def draw2 [Sample R α] (g : Rep3Rand R) : α × Rep3Rand R :=
  let (b, r2) := Sample.sample g.rng2
  (b, { g with rng2 := r2 })

/-- `/repo/mpc-core/src/protocols/rep3/rngs.rs:97-100` (`fork`), `90-94` (`new`) -/
def fork (Seed : Type) [Sample R Seed] [Seedable R Seed] (g : Rep3Rand R) :
    Rep3Rand R × Rep3Rand R :=
  let ((s1, s2), g) := g.randomPair (α := Seed)
  (⟨Seedable.fromSeed s1, Seedable.fromSeed s2⟩, g)

end Rep3Rand

namespace BitComp

/-- `/repo/mpc-core/src/protocols/rep3/rngs.rs:281-317`: draws from all three generators; without
a third generator the code panics (`unreachable!()`), here `none`. -/
def random3 [Sample R α] (g : BitComp R) : Option ((α × α × α) × BitComp R) :=
  let (a, r1) := Sample.sample g.rng1
  let (b, r2) := Sample.sample g.rng2
  match g.rng3 with
  | some r3 =>
    let (c, r3) := Sample.sample r3
    some ((a, b, c), ⟨r1, r2, some r3⟩)
  | none => none

/-- `/repo/mpc-core/src/protocols/rep3/rngs.rs:320-328` -/
def fork (Seed : Type) [Sample R Seed] [Seedable R Seed] (g : BitComp R) : BitComp R × BitComp R :=
  let (s1, r1) := Sample.sample (α := Seed) g.rng1
  let (s2, r2) := Sample.sample (α := Seed) g.rng2
  match g.rng3 with
  | some r3 =>
    let (s3, r3) := Sample.sample (α := Seed) r3
    (⟨Seedable.fromSeed s1, Seedable.fromSeed s2, some (Seedable.fromSeed s3)⟩,
     ⟨r1, r2, some r3⟩)
  | none => (⟨Seedable.fromSeed s1, Seedable.fromSeed s2, none⟩, ⟨r1, r2, none⟩)

end BitComp

namespace CorrelatedRng

/-- `/repo/mpc-core/src/protocols/rep3/rngs.rs:36-45` -/
def fork (Seed : Type) [Sample R Seed] [Seedable R Seed] (g : CorrelatedRng R) :
    CorrelatedRng R × CorrelatedRng R :=
  let (a, a') := g.rand.fork Seed
  let (b, b') := g.bitcomp1.fork Seed
  let (c, c') := g.bitcomp2.fork Seed
  (⟨a, b, c⟩, ⟨a', b', c'⟩)

/-- `/repo/mpc-core/src/protocols/rep3/rngs.rs:48-57` -/
def generateShared [Sample R α] (id : PartyID) (g : CorrelatedRng R) : α × CorrelatedRng R :=
  match id with
  | .ID0 =>
    let (x, r) := Sample.sample g.bitcomp1.rng2
    (x, { g with bitcomp1 := { g.bitcomp1 with rng2 := r } })
  | .ID1 =>
    let (x, r) := Sample.sample g.bitcomp1.rng2
    (x, { g with bitcomp1 := { g.bitcomp1 with rng2 := r } })
  | .ID2 =>
    let (x, r) := Sample.sample g.bitcomp1.rng1
    (x, { g with bitcomp1 := { g.bitcomp1 with rng1 := r } })

/-- `/repo/mpc-core/src/protocols/rep3/rngs.rs:60-69`; party 0 panics, here `none`. -/
def generateGarblerRandomness [Sample R α] (id : PartyID) (g : CorrelatedRng R) :
    Option (α × CorrelatedRng R) :=
  match id with
  | .ID0 => none
  | .ID1 =>
    let (x, r) := g.rand.draw1 (α := α)
    some (x, { g with rand := r })
  | .ID2 =>
    let (x, r) := g.rand.draw2 (α := α)
    some (x, { g with rand := r })

end CorrelatedRng

/-- `/repo/mpc-core/src/protocols/rep3.rs:120-132`: returns the forked state and the advanced old
one. -/
def Rep3State.fork (Seed : Type) [Sample R Seed] [Seedable R Seed] (s : Rep3State R) :
    Rep3State R × Rep3State R :=
  let (g, g') := s.rngs.fork Seed
  let (sd, r) := Sample.sample (α := Seed) s.rng
  (⟨s.id, g, Seedable.fromSeed sd, s.a2bType⟩, { s with rngs := g', rng := r })

end Draws

/-- Code of one Rep3 party. -/
abbrev Rep3M (R M α : Type) := MPC PartyID (Rep3State R) M Err α

namespace Rep3

variable {R M α : Type}

/-- Run a randomness request on the pairwise generators of the state. -/
def withRand (f : Rep3Rand R → α × Rep3Rand R) : Rep3M R M α :=
  MPC.modifyGet fun s =>
    let (x, g) := f s.rngs.rand
    (x, { s with rngs := { s.rngs with rand := g } })

/-- Run a request on the whole correlated generator. -/
def withRngs (f : CorrelatedRng R → α × CorrelatedRng R) : Rep3M R M α :=
  MPC.modifyGet fun s =>
    let (x, g) := f s.rngs
    (x, { s with rngs := g })

/-- Run a request that can panic on the whole correlated generator. -/
def withRngs? (f : CorrelatedRng R → Option (α × CorrelatedRng R)) : Rep3M R M α :=
  fun _ s =>
    match f s.rngs with
    | some (x, g) => .ret (x, { s with rngs := g })
    | none => .fail (.panic "internal error: entered unreachable code")

/-- `state.id` -/
def stateId : Rep3M R M PartyID := MPC.modifyGet fun s => (s.id, s)

/-! ### Network helpers, `/repo/mpc-core/src/protocols/rep3/network.rs` -/

/-- `/repo/mpc-core/src/protocols/rep3/network.rs:103-109` -/
def sendMany [Codec M (List α)] (dst : PartyID) (data : List α) : Rep3M R M Unit :=
  MPC.send dst data

/-- `/repo/mpc-core/src/protocols/rep3/network.rs:152-156` -/
def recvMany [Codec M (List α)] (src : PartyID) : Rep3M R M (List α) :=
  MPC.recv src

/-- The length check of `/repo/mpc-core/src/protocols/rep3/network.rs:20-25`, `45-52`, `143-147`. -/
def exactlyOne (l : List α) : Rep3M R M α :=
  match l with
  | [x] => pure x
  | _ => MPC.throw (.err "Expected 1 element, got more")

/-- `/repo/mpc-core/src/protocols/rep3/network.rs:97-99` -/
def sendTo [Codec M (List α)] (dst : PartyID) (data : α) : Rep3M R M Unit :=
  sendMany dst [data]

/-- `/repo/mpc-core/src/protocols/rep3/network.rs:141-148` -/
def recvFrom [Codec M (List α)] (src : PartyID) : Rep3M R M α := do
  let res ← recvMany src
  exactlyOne res

/-- `/repo/mpc-core/src/protocols/rep3/network.rs:113-116` -/
def sendNext [Codec M (List α)] (data : α) : Rep3M R M Unit := do
  let id ← MPC.netId
  sendTo id.next data

/-- `/repo/mpc-core/src/protocols/rep3/network.rs:120-123` -/
def sendNextMany [Codec M (List α)] (data : List α) : Rep3M R M Unit := do
  let id ← MPC.netId
  sendMany id.next data

/-- `/repo/mpc-core/src/protocols/rep3/network.rs:127-130` -/
def sendPrev [Codec M (List α)] (data : α) : Rep3M R M Unit := do
  let id ← MPC.netId
  sendTo id.prev data

/-- `/repo/mpc-core/src/protocols/rep3/network.rs:134-137` -/
def sendPrevMany [Codec M (List α)] (data : List α) : Rep3M R M Unit := do
  let id ← MPC.netId
  sendMany id.prev data

/-- `/repo/mpc-core/src/protocols/rep3/network.rs:160-163` -/
def recvNext [Codec M (List α)] : Rep3M R M α := do
  let id ← MPC.netId
  recvFrom id.next

/-- `/repo/mpc-core/src/protocols/rep3/network.rs:167-170` -/
def recvNextMany [Codec M (List α)] : Rep3M R M (List α) := do
  let id ← MPC.netId
  recvMany id.next

/-- `/repo/mpc-core/src/protocols/rep3/network.rs:174-177` -/
def recvPrev [Codec M (List α)] : Rep3M R M α := do
  let id ← MPC.netId
  recvFrom id.prev

/-- `/repo/mpc-core/src/protocols/rep3/network.rs:181-184` -/
def recvPrevMany [Codec M (List α)] : Rep3M R M (List α) := do
  let id ← MPC.netId
  recvMany id.prev

/-- `/repo/mpc-core/src/protocols/rep3/network.rs:205-213` -/
def sendAndRecvMany [Codec M (List α)] (dst : PartyID) (data : List α) (src : PartyID) :
    Rep3M R M (List α) := do
  sendMany dst data
  recvMany src

/-- `/repo/mpc-core/src/protocols/rep3/network.rs:188-201` -/
def sendAndRecv [Codec M (List α)] (dst : PartyID) (data : α) (src : PartyID) : Rep3M R M α := do
  let res ← sendAndRecvMany dst [data] src
  exactlyOne res

/-- `/repo/mpc-core/src/protocols/rep3/network.rs:30-36` -/
def reshareMany [Codec M (List α)] (data : List α) : Rep3M R M (List α) := do
  let id ← MPC.netId
  sendAndRecvMany id.next data id.prev

/-- `/repo/mpc-core/src/protocols/rep3/network.rs:15-26` -/
def reshare [Codec M (List α)] (data : α) : Rep3M R M α := do
  let res ← reshareMany [data]
  exactlyOne res

/-- `/repo/mpc-core/src/protocols/rep3/network.rs:83-93` -/
def sendBothMany [Codec M (List α)] (data : List α) : Rep3M R M Unit := do
  let id ← MPC.netId
  MPC.send id.prev data
  MPC.send id.next data

/-- `/repo/mpc-core/src/protocols/rep3/network.rs:57-79`: results from the previous and the next
party. -/
def broadcastMany [Codec M (List α)] (data : List α) : Rep3M R M (List α × List α) := do
  let id ← MPC.netId
  sendBothMany data
  let prevRes ← recvMany id.prev
  let nextRes ← recvMany id.next
  pure (prevRes, nextRes)

/-- `/repo/mpc-core/src/protocols/rep3/network.rs:40-53` -/
def broadcast [Codec M (List α)] (data : α) : Rep3M R M (α × α) := do
  let (p, n) ← broadcastMany [data]
  let p ← exactlyOne p
  let n ← exactlyOne n
  pure (p, n)

/-! ### State setup, `/repo/mpc-core/src/protocols/rep3.rs:54-111` -/

/-- `/repo/mpc-core/src/protocols/rep3.rs:71-76`; the seed is drawn from the party's own generator
`rng`, the generators of the resulting `Rep3Rand` are returned with the advanced `rng`.
The state carried by the monad is not used (there is none yet). -/
def setupPrf (Seed : Type) [Sample R Seed] [Seedable R Seed] [Codec M (List Seed)] (rng : R) :
    Rep3M R M (Rep3Rand R × R) := do
  let (seed1, rng) := Sample.sample (α := Seed) rng
  let seed2 ← reshare seed1
  pure (⟨Seedable.fromSeed seed1, Seedable.fromSeed seed2⟩, rng)

/-- `/repo/mpc-core/src/protocols/rep3.rs:78-110`; constructors `new_2keys`, `new_3keys` from
`/repo/mpc-core/src/protocols/rep3/rngs.rs:259-278`. -/
def setupBitcomp (Seed : Type) [Sample R Seed] [Seedable R Seed] [Codec M (List Seed)]
    [Codec M (List (Seed × Seed))] (rands : Rep3Rand R) :
    Rep3M R M ((BitComp R × BitComp R) × Rep3Rand R) := do
  let id ← MPC.netId
  let ((k1a, k1c), rands) := rands.randomPair (α := Seed)
  let ((k2a, k2c), rands) := rands.randomPair (α := Seed)
  let key2 (a b : Seed) : BitComp R := ⟨Seedable.fromSeed a, Seedable.fromSeed b, none⟩
  let key3 (a b c : Seed) : BitComp R :=
    ⟨Seedable.fromSeed a, Seedable.fromSeed b, some (Seedable.fromSeed c)⟩
  match id with
  | .ID0 =>
    let k2b ← sendAndRecv .ID1 k1c .ID2
    pure ((key2 k1a k1c, key3 k2a k2b k2c), rands)
  | .ID1 =>
    sendNext (k1c, k2c)
    let k1b ← recvPrev
    pure ((key3 k1a k1b k1c, key2 k2a k2c), rands)
  | .ID2 =>
    sendNext k2c
    let (k1b, k2b) ← recvPrev (α := Seed × Seed)
    pure ((key3 k1a k1b k1c, key3 k2a k2b k2c), rands)

/-- `Rep3State::new`, `/repo/mpc-core/src/protocols/rep3.rs:56-69`; `rng` is the result of
`from_entropy()`. -/
def newState (Seed : Type) [Sample R Seed] [Seedable R Seed] [Codec M (List Seed)]
    [Codec M (List (Seed × Seed))] (rng : R) (a2bType : A2BType) : Rep3M R M (Rep3State R) := do
  let id ← MPC.netId
  let (rand, rng) ← setupPrf Seed rng
  let ((bc1, bc2), rand) ← setupBitcomp Seed rand
  pure ⟨id, ⟨rand, bc1, bc2⟩, rng, a2bType⟩

end Rep3

end Verif
