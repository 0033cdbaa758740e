import Verif.Bridge.Rep3ToShamir
import Verif.Rep3.Arith
import Verif.Rep3.Share
import Verif.Shamir.Arith

/-!
# Model: shared witnesses

Models the shared witness of `/repo/co-circom/co-circom-types/src/lib.rs:150-383`, its compressed forms, and the
functions of `/repo/co-circom/co-circom/src/lib.rs:46-137` that deal, expand and translate it.

Not modelled: the file formats (`serde`, `bincode`).  The generator of the dealer (`thread_rng`) is an argument.
-/

namespace Verif.CoCircom

open Rep3
open MPC (bail panicWith)

variable {F R R' Seed M S P α : Type}

/-- `/repo/co-circom/co-circom-types/src/lib.rs:150-163` -/
inductive Compression where
  | none
  | halfShares
  | seededShares
  | seededHalfShares
  deriving DecidableEq, Repr

/-- `/repo/mpc-core/src/protocols/rep3.rs:138-150` -/
inductive ShareVec (F Seed : Type) where
  | replicated (v : List (Share F))
  | seededReplicated (v : ReplicatedSeed (List F) Seed)
  | additive (v : List F)
  | seededAdditive (v : Seeded (List F) Seed)

/-- `/repo/co-circom/co-circom-types/src/lib.rs:210-224` -/
structure SharedWitness (P S : Type) where
  publicInputs : List P
  witness : List S
  deriving DecidableEq, Repr

/-- `/repo/co-circom/co-circom-types/src/lib.rs:165-175` -/
structure CompressedWitness (F Seed : Type) where
  publicInputs : List F
  witness : ShareVec F Seed

/-- `&values[..n]` and `&values[n..]`: both panic if `n` is too large.
`/repo/co-circom/co-circom-types/src/lib.rs:293-294`, `342-343`, `369-370` -/
def splitValues (values : List F) (n : Nat) : Except Err (List F × List F) :=
  if values.length < n then .error (.panic "range end index out of range for slice")
  else .ok (values.take n, values.drop n)

/-- The sharing that belongs to a compression. `/repo/co-circom/co-circom-types/src/lib.rs:296-324`; `R` is the type of
the generators that seeds are expanded with, `R'` of that of the dealer. -/
def shareVec (R : Type) [Sub F] [Sample R F] [Sample R' F] [Sample R' Seed] [Seedable R Seed] (witness : List F)
    (rng : R') : Compression → PartyID → ShareVec F Seed
  | .seededHalfShares, i => .seededAdditive ((shareElementsAdditiveSeeded R witness rng).1 i)
  | .seededShares, i => .seededReplicated ((shareElementsSeeded R witness rng).1 i)
  | .halfShares, i => .additive ((shareElementsAdditive witness rng).1 i)
  | .none, i => .replicated ((shareElements witness rng).1 i)

/-- `CompressedRep3SharedWitness::share_rep3` and `split_witness_rep3`.
`/repo/co-circom/co-circom-types/src/lib.rs:285-332`, `/repo/co-circom/co-circom/src/lib.rs:46-54` -/
def shareRep3 (R : Type) [Sub F] [Sample R F] [Sample R' F] [Sample R' Seed] [Seedable R Seed] (values : List F)
    (numPub : Nat) (rng : R') (c : Compression) : Except Err (PartyID → CompressedWitness F Seed) := do
  let (pub, wit) ← splitValues values numPub
  pure fun i => ⟨pub, shareVec R wit rng c i⟩

/-- `SharedWitness::share_rep3`. `/repo/co-circom/co-circom-types/src/lib.rs:334-358` -/
def shareRep3Plain [Sub F] [Sample R' F] (values : List F) (numPub : Nat) (rng : R') :
    Except Err (PartyID → SharedWitness F (Share F)) := do
  let (pub, wit) ← splitValues values numPub
  pure fun i => ⟨pub, (shareElements wit rng).1 i⟩

/-- `SharedWitness::share_shamir` and `split_witness_shamir`.
`/repo/co-circom/co-circom-types/src/lib.rs:360-383`, `/repo/co-circom/co-circom/src/lib.rs:83-92` -/
def shareShamir [Field F] [Sample R' F] (values : List F) (numPub degree numParties : Nat) (rng : R') :
    Except Err (List (SharedWitness F F)) := do
  let (pub, wit) ← splitValues values numPub
  pure ((Shamir.shareMany F wit degree numParties rng).1.map fun s => ⟨pub, s⟩)

/-- `From<Rep3SharedWitness> for CompressedRep3SharedWitness`. `/repo/co-circom/co-circom-types/src/lib.rs:177-184` -/
def compress (w : SharedWitness F (Share F)) : CompressedWitness F Seed := ⟨w.publicInputs, .replicated w.witness⟩

/-- `From<CompressedRep3SharedWitness> for SharedWitness<F, F>`: the additive shares.
`/repo/co-circom/co-circom-types/src/lib.rs:186-208` -/
def additiveShares (R : Type) [Sample R F] [Seedable R Seed] (w : CompressedWitness F Seed) : SharedWitness F F :=
  ⟨w.publicInputs, match w.witness with
    | .replicated v => v.map Share.a
    | .seededReplicated v => v.a.expandVec R
    | .additive v => v
    | .seededAdditive v => v.expandVec R⟩

/-- `expand_vec()?` -/
def expandOrFail [Sample R F] [Seedable R Seed] {ι : Type} (v : ReplicatedSeed (List F) Seed) :
    MPC ι S M Err (List (Share F)) :=
  match v.expandVec R with
  | .ok l => pure l
  | .error e => MPC.throw e

/-- The match of `uncompress_shared_witness`. `/repo/co-circom/co-circom/src/lib.rs:63-73` -/
def expandShares [CommRing F] [Sample R F] [Seedable R Seed] [Codec M (List F)] :
    ShareVec F Seed → Rep3M R M (List (Share F))
  | .replicated v => pure v
  | .seededReplicated v => expandOrFail (R := R) v
  | .additive v => reshareVec v
  | .seededAdditive v => reshareVec (v.expandVec R)

/-- `uncompress_shared_witness`. `/repo/co-circom/co-circom/src/lib.rs:57-80`; the function has no protocol state, so the
state here is passed through. -/
def uncompress [CommRing F] [Sample R F] [Seedable R Seed] [Codec M (List F)]
    (w : CompressedWitness F Seed) : Rep3M R M (SharedWitness F (Share F)) := do
  let wit ← expandShares w.witness
  pure ⟨w.publicInputs, wit⟩

/-- Run code with a protocol state of its own, which is dropped at the end (`let mut protocol = ..`). -/
def withState {ι T : Type} (s : T) (p : MPC ι T M Err α) : MPC ι S M Err α :=
  fun i s' => (p i s).bind fun (a, _) => .ret (a, s')

/-- Preprocessing for the translation of additive shares, then the translation.
`/repo/co-circom/co-circom/src/lib.rs:108-117`, `118-128`; `seed` is the randomness that the preprocessing takes from the
operating system. -/
def translateAdditive (R : Type) [Field F] [DecidableEq F] [Inhabited Seed] [Sample R Seed] [Seedable R Seed] [Sample R F]
    [Codec M (List Seed)] [Codec M (List F)] (seed : Seed) (v : List F) : MPC (Fin 3) S M Err (List F) := do
  let g ← Shamir.preprocessingNew (R := R) F seed 1 v.length
  match Shamir.ShamirState.ofPreprocessing g with
  | some st => withState st (Bridge.translateAddshareVec v)
  | none => panicWith "called `Option::unwrap()` on a `None` value"

/-- `ShamirState::translate_primefield_repshare_vec(vec, PartyID::try_from(net.id())?)`.
`/repo/co-circom/co-circom/src/lib.rs:101-103`, `106` -/
def translateReplicated [Field F] [DecidableEq F] (v : List (Share F)) : MPC (Fin 3) S M Err (List F) := do
  let id ← MPC.netId
  match Bridge.translateRepshareVec F v (Bridge.party3 id) with
  | some l => pure l
  | none => panicWith "called `Option::unwrap()` on a `None` value"

/-- The match of `translate_witness`. `/repo/co-circom/co-circom/src/lib.rs:100-129` -/
def translateShares (R : Type) [Field F] [DecidableEq F] [Inhabited Seed] [Sample R Seed] [Seedable R Seed] [Sample R F]
    [Codec M (List Seed)] [Codec M (List F)] (seed : Seed) : ShareVec F Seed → MPC (Fin 3) S M Err (List F)
  | .replicated v => translateReplicated v
  | .seededReplicated v => do
    let v ← expandOrFail (R := R) v
    translateReplicated v
  | .additive v => translateAdditive R seed v
  | .seededAdditive v => translateAdditive R seed (v.expandVec R)

/-- `translate_witness`. `/repo/co-circom/co-circom/src/lib.rs:95-137` -/
def translateWitness (R : Type) [Field F] [DecidableEq F] [Inhabited Seed] [Sample R Seed] [Seedable R Seed] [Sample R F]
    [Codec M (List Seed)] [Codec M (List F)] (seed : Seed) (w : CompressedWitness F Seed) :
    MPC (Fin 3) S M Err (SharedWitness F F) := do
  let wit ← translateShares R seed w.witness
  pure ⟨w.publicInputs, wit⟩

/-- `public_inputs_for_verify`: `self.public_inputs[1..]`, a panic if there is not even the constant.
`/repo/co-circom/co-circom-types/src/lib.rs:275-283` -/
def publicInputsForVerify (w : SharedWitness P S) : Except Err (List P) :=
  if w.publicInputs.length < 1 then .error (.panic "range start index out of range for slice")
  else .ok (w.publicInputs.drop 1)

/-- `rows[idx].push(x)` for all `idx`, on rows that are as many as the values.
`/repo/co-circom/co-circom-types/src/lib.rs:246-248`, `257-259` -/
def pushAll (rows : List (List α)) (xs : List α) : List (List α) := List.zipWith (fun r x => r ++ [x]) rows xs

/-- The two loops of `unbatch` over the entries of a batched witness.
`/repo/co-circom/co-circom-types/src/lib.rs:240-249`, `251-260` -/
def unbatchLoop (batchSize : Nat) : List (List α) → List (List α) → Except Err (List (List α))
  | rows, [] => .ok rows
  | rows, xs :: rest =>
    if xs.length ≠ batchSize then .error (.panic "batch size not consistent in batched witness")
    else unbatchLoop batchSize (pushAll rows xs) rest

/-- `BatchedWitness::unbatch`; a batched witness holds the vector of the values of the batch at every position.
`/repo/co-circom/co-circom-types/src/lib.rs:226-273` -/
def unbatch : SharedWitness (List P) (List S) → Except Err (List (SharedWitness P S))
  | ⟨[], _⟩ => .error (.panic "trying to unbatch an empty shared witness")
  | ⟨first :: more, witness⟩ => do
    let batchSize := first.length
    let publicInputs ← unbatchLoop batchSize (List.replicate batchSize []) (first :: more)
    let witnesses ← unbatchLoop batchSize (List.replicate batchSize []) witness
    pure ((publicInputs.zip witnesses).map fun x => ⟨x.1, x.2⟩)

end Verif.CoCircom
