import Verif.Gadgets.Poseidon2
import Mathlib.Data.Nat.Log

/-!
# Merkle trees

Models `/repo/mpc-core/src/gadgets/merkle_tree/{plain,rep3,shamir}.rs`: the root over Poseidon2 in sponge and in compression
mode, in the clear, on replicated and on Shamir shares, computed in place; witnesses for one leaf and their
verification.  The constant type parameter `ARITY` is an argument.  `none` is a panic.  Debug assertions are not
modelled.
-/

namespace Verif.Merkle

open Poseidon2
open MPC (panicWith)

variable {F S R M : Type} {n : Nat}

/-- `len.ilog(ARITY)` panics for a base below two and for zero; then `assert_eq!(len, ARITY.pow(log))`.
`/repo/mpc-core/src/gadgets/merkle_tree/plain.rs:17-19` -/
def checkLen (arity len : Nat) : Option Unit :=
  if 2 ≤ arity ∧ 0 < len ∧ len = arity ^ Nat.log arity len then some () else none

/-- Every chunk of `ARITY` elements, filled up with zeros to `T`.
`/repo/mpc-core/src/gadgets/merkle_tree/plain.rs:22-30` -/
def pad (z : S) (t arity : Nat) (input : List S) : List S :=
  (chunksExact arity input).flatMap fun c => c ++ List.replicate (t - c.length) z

/-- `v[dst] = v[src]` -/
def copy (v : List S) (dst src : Nat) : Option (List S) :=
  match v[src]? with
  | none => none
  | some x => if dst < v.length then some (v.set dst x) else none

/-- `v[dst] = x` -/
def put (v : List S) (dst : Nat) (x : S) : Option (List S) :=
  if dst < v.length then some (v.set dst x) else none

/-- The outputs of the hashes become the inputs of the next layer, in place.
`/repo/mpc-core/src/gadgets/merkle_tree/plain.rs:40-47` -/
def compact (z : S) (t arity len : Nat) (input : List S) : Option (List S) :=
  (List.range (len / arity)).foldlM (fun input i => do
    let input ← (List.range arity).foldlM (fun input j => copy input (t * i + j) (t * arity * i + j * t)) input
    (List.range' arity (t - arity)).foldlM (fun input j => put input (t * i + j) z) input) input

/-- `while len > 1 { len /= ARITY; hash; compact }`; `lift` turns the panics of `compact` into those of the monad.
`/repo/mpc-core/src/gadgets/merkle_tree/plain.rs:32-48` -/
def treeLoop {m : Type → Type} [Monad m] {π : Type} (lift : Option (List S) → m (List S))
    (hash : Nat → List S × π → m (List S × π)) (z : S) (t arity len : Nat) (s : List S × π) : m (List S × π) :=
  if _h : 1 < len ∧ 1 < arity then do
    let s ← hash (len / arity) s
    let input ← lift (compact z t arity (len / arity) s.1)
    treeLoop lift hash z t arity (len / arity) (input, s.2)
  else pure s
termination_by len
decreasing_by exact Nat.div_lt_self (by omega) _h.2

/-! ## In the clear -/

section Plain

variable [Semiring F]

/-- `for inp in input.chunks_exact_mut(T).take(len)`: a change of the first `len` chunks. -/
def onChunks (f : List F → List F) (t len : Nat) (input : List F) : List F :=
  mapChunks f t (input.take (t * len)) ++ input.drop (t * len)

/-- `/repo/mpc-core/src/gadgets/merkle_tree/plain.rs:35-38` -/
def spongeBlock (p : Params F) (inp : List F) : List F := permutationRounds p (matmulExternal inp)

/-- `/repo/mpc-core/src/gadgets/merkle_tree/plain.rs:138-142` -/
def compressionBlock (p : Params F) (inp : List F) : List F :=
  onFirst (· + inp.headD 0) (permutationRounds p (matmulExternal inp))

/-- One layer of hashes; a state size without a matrix panics. -/
def plainLayer (p : Params F) (block : List F → List F) (len : Nat) (s : List F × Unit) :
    Option (List F × Unit) :=
  if ValidSize p.t then some (onChunks block p.t len s.1, ()) else none

/-- `/repo/mpc-core/src/gadgets/merkle_tree/plain.rs:15-50` -/
def merkleSponge (p : Params F) (arity : Nat) (input : List F) : Option F :=
  if arity < p.t then do
    checkLen arity input.length
    let s ← treeLoop id (plainLayer p (spongeBlock p)) 0 p.t arity input.length (pad 0 p.t arity input, ())
    s.1.head?
  else none

/-- `/repo/mpc-core/src/gadgets/merkle_tree/plain.rs:113-155` -/
def merkleCompression (p : Params F) (arity : Nat) (input : List F) : Option F :=
  if arity ≤ p.t then do
    checkLen arity input.length
    let padded := if p.t = arity then input else pad 0 p.t arity input
    let s ← treeLoop id (plainLayer p (compressionBlock p)) 0 p.t arity input.length (padded, ())
    s.1.head?
  else none

/-- `/repo/mpc-core/src/gadgets/merkle_tree/plain.rs:6-11` -/
structure WitnessElement (F : Type) where
  other : List F
  position : Nat

/-- `/repo/mpc-core/src/gadgets/merkle_tree/plain.rs:78-92`: the other inputs of the hash of one layer. -/
def witnessOf (t arity i : Nat) (input : List F) : WitnessElement F :=
  ⟨((((input.drop (i / arity * t)).take arity).zipIdx).filter fun e => e.2 ≠ i % arity).map (·.1), i % arity⟩

/-- `/repo/mpc-core/src/gadgets/merkle_tree/plain.rs:74-108` -/
def witnessLoop (p : Params F) (block : List F → List F) (arity : Nat) (len i : Nat) (input : List F)
    (witness : List (WitnessElement F)) : Option (List F × List (WitnessElement F)) :=
  if _h : 1 < len ∧ 1 < arity then do
    let s ← plainLayer p block (len / arity) (input, ())
    let input' ← compact 0 p.t arity (len / arity) s.1
    witnessLoop p block arity (len / arity) (i / arity) input' (witness ++ [witnessOf p.t arity i input])
  else some (input, witness)
termination_by len
decreasing_by exact Nat.div_lt_self (by omega) _h.2

/-- `input[0]` together with the witness. -/
def firstWith (r : List F × List (WitnessElement F)) : Option (F × List (WitnessElement F)) :=
  match r.1 with
  | [] => none
  | x :: _ => some (x, r.2)

/-- `/repo/mpc-core/src/gadgets/merkle_tree/plain.rs:53-110` -/
def merkleSpongeWithWitness (p : Params F) (arity : Nat) (input : List F) (i : Nat) :
    Option (F × List (WitnessElement F)) :=
  if arity < p.t then do
    checkLen arity input.length
    let r ← witnessLoop p (spongeBlock p) arity input.length i (pad 0 p.t arity input) []
    firstWith r
  else none

/-- `/repo/mpc-core/src/gadgets/merkle_tree/plain.rs:158-222` -/
def merkleCompressionWithWitness (p : Params F) (arity : Nat) (input : List F) (i : Nat) :
    Option (F × List (WitnessElement F)) :=
  if arity ≤ p.t then do
    checkLen arity input.length
    let padded := if p.t = arity then input else pad 0 p.t arity input
    let r ← witnessLoop p (compressionBlock p) arity input.length i padded []
    firstWith r
  else none

/-- The state in which the leaf and the other values are put together.  The lengths are checked before, so no
index is out of bounds. `/repo/mpc-core/src/gadgets/merkle_tree/plain.rs:241-248` -/
def pathState (t arity : Nat) (leaf : F) (w : WitnessElement F) : List F :=
  (List.range t).map fun i =>
    if i < arity then
      if i < w.position then w.other.getD i 0 else if i = w.position then leaf else w.other.getD (i - 1) 0
    else 0

/-- `/repo/mpc-core/src/gadgets/merkle_tree/plain.rs:233-255`; `none` is a panic of the permutation or of `perm[0]`. -/
def pathLoop [DecidableEq F] (p : Params F) (block : List F → List F) (arity : Nat) (root : F) :
    F → List (WitnessElement F) → Option Bool
  | leaf, [] => some (decide (root = leaf))
  | leaf, w :: ws =>
    if w.other.length ≠ arity - 1 then some false
    else if w.position ≥ arity then some false
    else if ValidSize p.t then
      match block (pathState p.t arity leaf w) with
      | [] => none
      | x :: _ => pathLoop p block arity root x ws
    else none

/-- `/repo/mpc-core/src/gadgets/merkle_tree/plain.rs:225-256`; `witness[0]` panics for an empty witness. -/
def verifySponge [DecidableEq F] (p : Params F) (root leaf : F) (witness : List (WitnessElement F)) :
    Option Bool :=
  match witness with
  | [] => none
  | w :: ws =>
    if w.other.length + 1 < p.t then pathLoop p (spongeBlock p) (w.other.length + 1) root leaf (w :: ws) else none

/-- `/repo/mpc-core/src/gadgets/merkle_tree/plain.rs:259-291` -/
def verifyCompression [DecidableEq F] (p : Params F) (root leaf : F) (witness : List (WitnessElement F)) :
    Option Bool :=
  match witness with
  | [] => none
  | w :: ws =>
    if w.other.length + 1 ≤ p.t then
      pathLoop p (compressionBlock p) (w.other.length + 1) root leaf (w :: ws)
    else none

end Plain

/-! ## On shares -/

section Shares

variable {ι σ π : Type}

/-- The packed permutation of `input[..T * len]`; the slice panics if there are not as many.
`/repo/mpc-core/src/gadgets/merkle_tree/rep3.rs:38-42` -/
def spongeLayer (perm : List S → π → MPC ι σ M Err (List S × π)) (t len : Nat) (s : List S × π) :
    MPC ι σ M Err (List S × π) :=
  if t * len ≤ s.1.length then do
    let r ← perm (s.1.take (t * len)) s.2
    pure (r.1 ++ s.1.drop (t * len), r.2)
  else panicWith "index out of bounds"

/-- `for i in 0..len { input[T * i] += ff[T * i]; }` `/repo/mpc-core/src/gadgets/merkle_tree/rep3.rs:99-101` -/
def feedForward [Add S] (t len : Nat) (ff input : List S) : Option (List S) :=
  (List.range len).foldlM (fun input i =>
    match input[t * i]?, ff[t * i]? with
    | some x, some y => some (input.set (t * i) (x + y))
    | _, _ => none) input

/-- `/repo/mpc-core/src/gadgets/merkle_tree/rep3.rs:91-101` -/
def compressionLayer [Add S] (perm : List S → π → MPC ι σ M Err (List S × π)) (t len : Nat) (s : List S × π) :
    MPC ι σ M Err (List S × π) := do
  let r ← spongeLayer perm t len s
  let input ← orPanic (feedForward t len s.1 r.1)
  pure (input, r.2)

end Shares

section Rep3

variable [CommRing F] [Sample R F] [Codec M (List F)]

/-- `/repo/mpc-core/src/gadgets/merkle_tree/rep3.rs:10-56` -/
def merkleSpongeRep3 (p : Params F) (arity : Nat) (input : List (Share F)) : Rep3M R M (Share F) :=
  if arity < p.t then do
    orPanic (checkLen arity input.length)
    let pre ← precomputeRep3 p ((input.length - 1) / (arity - 1))
    let s ← treeLoop orPanic (spongeLayer (permutationPacked p) p.t) Share.zeroShare p.t arity input.length
      (pad Share.zeroShare p.t arity input, pre)
    orPanic s.1.head?
  else panicWith "assertion failed"

/-- `/repo/mpc-core/src/gadgets/merkle_tree/rep3.rs:59-115` -/
def merkleCompressionRep3 (p : Params F) (arity : Nat) (input : List (Share F)) : Rep3M R M (Share F) :=
  if arity ≤ p.t then do
    orPanic (checkLen arity input.length)
    let pre ← precomputeRep3 p ((input.length - 1) / (arity - 1))
    let s ← treeLoop orPanic (compressionLayer (permutationPacked p) p.t) Share.zeroShare p.t arity input.length
      (if p.t = arity then input else pad Share.zeroShare p.t arity input, pre)
    orPanic s.1.head?
  else panicWith "assertion failed"

end Rep3

section Shamir

open Shamir

variable [Field F] [Sample R F] [Codec M F] [Codec M (List F)]

/-- `/repo/mpc-core/src/gadgets/merkle_tree/shamir.rs:10-58` -/
def merkleSpongeShamir (p : Params F) (arity : Nat) (input : List F) : ShamirM n R F M F :=
  if arity < p.t then do
    orPanic (checkLen arity input.length)
    ensurePairs (randRequired p ((input.length - 1) / (arity - 1)) true)
    let pre ← precomputeShamir p ((input.length - 1) / (arity - 1))
    let s ← treeLoop orPanic (spongeLayer (permutationPackedShamir p) p.t) 0 p.t arity input.length
      (pad 0 p.t arity input, pre)
    orPanic s.1.head?
  else panicWith "assertion failed"

/-- `/repo/mpc-core/src/gadgets/merkle_tree/shamir.rs:61-119` -/
def merkleCompressionShamir (p : Params F) (arity : Nat) (input : List F) : ShamirM n R F M F :=
  if arity ≤ p.t then do
    orPanic (checkLen arity input.length)
    ensurePairs (randRequired p ((input.length - 1) / (arity - 1)) true)
    let pre ← precomputeShamir p ((input.length - 1) / (arity - 1))
    let s ← treeLoop orPanic (compressionLayer (permutationPackedShamir p) p.t) 0 p.t arity input.length
      (if p.t = arity then input else pad 0 p.t arity input, pre)
    orPanic s.1.head?
  else panicWith "assertion failed"

end Shamir

end Verif.Merkle
