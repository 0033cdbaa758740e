import Verif.Rep3.Arith
import Verif.Shamir.Arith

/-!
# Poseidon2

Models `/repo/mpc-core/src/gadgets/poseidon2/{poseidon2_params,poseidon2_permutation,mod,rep3,shamir}.rs`: the
permutation in the clear, on replicated shares, on additive shares and on Shamir shares, with and without
precomputed powers, one at a time and packed.

The state `[F; T]` is a list of length `T`.  The linear layers exist twice in the code with the same body, once over
field elements and once over `Rep3PrimeFieldShare`; they are one definition here, over any type with an
addition and a multiplication by field elements.  Debug assertions are not modelled.  The round constants are
looked up with `getD`: `Poseidon2Params::new` asserts that there are as many as there are rounds.
-/

namespace Verif

/-- `*s *= m` on shares. `/repo/mpc-core/src/protocols/rep3/arithmetic/ops.rs:78-98`, `109-114` -/
instance {F : Type} [Mul F] : HMul (Share F) F (Share F) := ⟨Share.scale⟩

namespace Poseidon2

open PartyID
open MPC (bail panicWith)

variable {F S R M : Type} {n : Nat}

/-! ## Parameters -/

/-- `/repo/mpc-core/src/gadgets/poseidon2/poseidon2_params.rs:5-18`; `t` and `d` are the constant type
parameters `T` and `D`. -/
structure Params (F : Type) where
  t : Nat
  d : Nat
  roundsFBeginning : Nat
  roundsFEnd : Nat
  roundsP : Nat
  diagM1 : List F
  rcExternal : List (List F)
  rcInternal : List F

/-- `/repo/mpc-core/src/gadgets/poseidon2/poseidon2_params.rs:21-44`; `none` is a failed assertion.  That the
vectors `[F; T]` have `T` entries is a matter of types in the code. -/
def Params.new (t d roundsF roundsP : Nat) (diagM1 : List F) (rcExternal : List (List F))
    (rcInternal : List F) : Option (Params F) :=
  if (t = 2 ∨ t = 3 ∨ (t ≤ 24 ∧ t % 4 = 0)) ∧ d % 2 = 1 ∧ roundsF % 2 = 0 ∧ rcExternal.length = roundsF ∧
      rcInternal.length = roundsP ∧ diagM1.length = t ∧ ∀ rc ∈ rcExternal, rc.length = t then
    some ⟨t, d, roundsF / 2, roundsF / 2, roundsP, diagM1, rcExternal, rcInternal⟩
  else none

/-- `/repo/mpc-core/src/gadgets/poseidon2/poseidon2_permutation.rs:25-27` -/
def Params.numSbox (p : Params F) : Nat := (p.roundsFBeginning + p.roundsFEnd) * p.t + p.roundsP

/-- The state sizes with a matrix; `matmul_external` panics on every other one.
`/repo/mpc-core/src/gadgets/poseidon2/poseidon2_permutation.rs:84-122` -/
def ValidSize (t : Nat) : Prop := t ∈ [2, 3, 4, 8, 12, 16, 20, 24]

instance (t : Nat) : Decidable (ValidSize t) := inferInstanceAs (Decidable (t ∈ _))

/-! ## Linear layers -/

section Linear

variable [Add S]

/-- `chunks_exact_mut(n)` with a loop that replaces every chunk; what remains is left as it is. -/
def mapChunks {α : Type} (f : List α → List α) (n : Nat) (l : List α) : List α :=
  if _h : n = 0 ∨ l.length < n then l else f (l.take n) ++ mapChunks f n (l.drop n)
termination_by l.length
decreasing_by
  simp only [List.length_drop]
  omega

/-- `chunks_exact(n)` -/
def chunksExact {α : Type} (n : Nat) (l : List α) : List (List α) :=
  if _h : n = 0 ∨ l.length < n then [] else l.take n :: chunksExact n (l.drop n)
termination_by l.length
decreasing_by
  simp only [List.length_drop]
  omega

/-- `/repo/mpc-core/src/gadgets/poseidon2/poseidon2_permutation.rs:67-80`,
`/repo/mpc-core/src/gadgets/poseidon2/rep3.rs:82-95` -/
def matmulM4 : List S → List S
  | [i0, i1, i2, i3] =>
    let t0 := i0 + i1
    let t1 := i2 + i3
    let t2 := (i1 + i1) + t1
    let t3 := (i3 + i3) + t0
    let t4 := ((t1 + t1) + (t1 + t1)) + t3
    let t5 := ((t0 + t0) + (t0 + t0)) + t2
    let t6 := t3 + t5
    let t7 := t2 + t4
    [t6, t5, t7, t4]
  | l => l

/-- `stored[l] = input[l] + input[4 + l] + …`, for the four `l` at once.
`/repo/mpc-core/src/gadgets/poseidon2/poseidon2_permutation.rs:108-114` -/
def addBlocks : List (List S) → List S
  | [] => []
  | c :: cs => cs.foldl (List.zipWith (· + ·)) c

/-- `/repo/mpc-core/src/gadgets/poseidon2/poseidon2_permutation.rs:83-123`,
`/repo/mpc-core/src/gadgets/poseidon2/rep3.rs:98-138`.  The last case is the code for `T = 8, 12, 16, 20, 24`; the
callers below panic first for the sizes without a matrix. -/
def matmulExternal : List S → List S
  | [i0, i1] =>
    let sum := i0 + i1
    [i0 + sum, i1 + sum]
  | [i0, i1, i2] =>
    let sum := i0 + i1 + i2
    [i0 + sum, i1 + sum, i2 + sum]
  | [i0, i1, i2, i3] => matmulM4 [i0, i1, i2, i3]
  | input =>
    let blocks := (chunksExact 4 input).map matmulM4
    let stored := addBlocks blocks
    (blocks.map fun block => List.zipWith (· + ·) block stored).flatten

/-- The sum of the state. `/repo/mpc-core/src/gadgets/poseidon2/poseidon2_permutation.rs:150` (which starts from
zero), `/repo/mpc-core/src/gadgets/poseidon2/rep3.rs:165-168` -/
def sumState : List S → S → S
  | [], acc => acc
  | x :: xs, acc => sumState xs (acc + x)

/-- `/repo/mpc-core/src/gadgets/poseidon2/poseidon2_permutation.rs:126-162`,
`/repo/mpc-core/src/gadgets/poseidon2/rep3.rs:141-180` -/
def matmulInternal [HMul S F S] (diagM1 : List F) : List S → List S
  | [i0, i1] =>
    let sum := i0 + i1
    [i0 + sum, (i1 + i1) + sum]
  | [i0, i1, i2] =>
    let sum := i0 + i1 + i2
    [i0 + sum, i1 + sum, (i2 + i2) + sum]
  | [] => []
  | i0 :: rest =>
    let sum := sumState rest i0
    List.zipWith (fun s m => s * m + sum) (i0 :: rest) diagM1

end Linear

/-! ## Rounds -/

/-- The loops over the rounds that all variants of the permutation share: `rounds_f_beginning` external
rounds, `rounds_p` internal rounds, `rounds_f_end` external rounds.
`/repo/mpc-core/src/gadgets/poseidon2/poseidon2_permutation.rs:198-213` -/
def rounds {m : Type → Type} [Monad m] {σ : Type} (p : Params F) (external internal : Nat → σ → m σ)
    (s : σ) : m σ := do
  let s ← (List.range p.roundsFBeginning).foldlM (fun s r => external r s) s
  let s ← (List.range p.roundsP).foldlM (fun s r => internal r s) s
  (List.range' p.roundsFBeginning p.roundsFEnd).foldlM (fun s r => external r s) s

/-- Update of the first element. -/
def onFirst {α : Type} (f : α → α) : List α → List α
  | [] => []
  | x :: xs => f x :: xs

/-! ## In the clear -/

section Plain

variable [Semiring F]

/-- `/repo/mpc-core/src/gadgets/poseidon2/poseidon2_permutation.rs:33-54` -/
def singleSbox (d : Nat) (input : F) : F :=
  match d with
  | 3 =>
    let input2 := input * input
    input * input2
  | 5 =>
    let input2 := input * input
    let input4 := input2 * input2
    input * input4
  | 7 =>
    let input2 := input * input
    let input4 := input2 * input2
    input * input4 * input2
  | d => input ^ d

/-- `/repo/mpc-core/src/gadgets/poseidon2/poseidon2_permutation.rs:165-172` -/
def addRcExternal (p : Params F) (r : Nat) (input : List F) : List F :=
  List.zipWith (· + ·) input (p.rcExternal.getD r [])

/-- `/repo/mpc-core/src/gadgets/poseidon2/poseidon2_permutation.rs:175-177` -/
def addRcInternal (p : Params F) (r : Nat) (input : List F) : List F :=
  onFirst (· + p.rcInternal.getD r 0) input

/-- `/repo/mpc-core/src/gadgets/poseidon2/poseidon2_permutation.rs:180-184` -/
def externalRound (p : Params F) (r : Nat) (state : List F) : List F :=
  matmulExternal ((addRcExternal p r state).map (singleSbox p.d))

/-- `/repo/mpc-core/src/gadgets/poseidon2/poseidon2_permutation.rs:187-191` -/
def internalRound (p : Params F) (r : Nat) (state : List F) : List F :=
  matmulInternal p.diagM1 (onFirst (singleSbox p.d) (addRcInternal p r state))

/-- What follows the first linear layer in
`/repo/mpc-core/src/gadgets/poseidon2/poseidon2_permutation.rs:198-213`. -/
def permutationRounds (p : Params F) (state : List F) : List F :=
  rounds (m := Id) p (fun r s => externalRound p r s) (fun r s => internalRound p r s) state

/-- `/repo/mpc-core/src/gadgets/poseidon2/poseidon2_permutation.rs:194-221` (`permutation_in_place`, `permutation`);
`none` is the panic of the linear layer. -/
def permutation (p : Params F) (input : List F) : Option (List F) :=
  if ValidSize p.t then some (permutationRounds p (matmulExternal input)) else none

end Plain

/-! ## Precomputed powers -/

/-- `/repo/mpc-core/src/gadgets/poseidon2/mod.rs:28-35` -/
structure Precomputations (S : Type) where
  r : List S
  r2 : List S
  r3 : List S
  r4 : List S
  r5 : List S
  offset : Nat

/-- The next `k` entries: `get(offset), …, get(offset + k - 1)`.  `none` is the panic of an index out of bounds.
The code reads the entries of `r` before it opens anything and the powers afterwards; all precomputations
have five vectors of equal length, so the panic comes before the opening.
`/repo/mpc-core/src/gadgets/poseidon2/mod.rs:39-47` -/
def Precomputations.slice (p : Precomputations S) (k : Nat) : Option (List (S × S × S × S × S)) :=
  if p.offset + k ≤ p.r.length ∧ p.offset + k ≤ p.r2.length ∧ p.offset + k ≤ p.r3.length ∧
      p.offset + k ≤ p.r4.length ∧ p.offset + k ≤ p.r5.length then
    some (((p.r.zip (p.r2.zip (p.r3.zip (p.r4.zip p.r5)))).drop p.offset).take k)
  else none

/-- `precomp.offset += k` -/
def Precomputations.advance (p : Precomputations S) (k : Nat) : Precomputations S :=
  { p with offset := p.offset + k }

/-- `Option` results of local functions that panic. -/
def orPanic {ι σ α : Type} (x : Option α) : MPC ι σ M Err α :=
  match x with
  | some x => pure x
  | none => panicWith "index out of bounds"

/-- `step_by(n)`: the elements at positions `0, n, 2 n, …` -/
def stepBy {α : Type} (n : Nat) (l : List α) : List α :=
  match l with
  | [] => []
  | x :: xs => if n = 0 then [] else x :: stepBy n ((x :: xs).drop n)
termination_by l.length
decreasing_by
  simp only [List.length_drop, List.length_cons]
  omega

/-- `for (inp, r) in input.iter_mut().step_by(n).zip(vec) { *inp = r; }` -/
def setBy {α : Type} (n : Nat) (l vec : List α) : List α :=
  match l, vec with
  | [], _ => []
  | l, [] => l
  | x :: xs, v :: vs => if n = 0 then x :: xs else v :: (xs.take (n - 1) ++ setBy n (xs.drop (n - 1)) vs)
termination_by l.length
decreasing_by
  simp only [List.length_drop, List.length_cons]
  omega

/-! ## Replicated shares -/

section Rep3


variable [CommRing F] [Sample R F] [Codec M (List F)]

/-- `/repo/mpc-core/src/gadgets/poseidon2/rep3.rs:12-51` -/
def precomputeRep3 (p : Params F) (numPoseidon : Nat) : Rep3M R M (Precomputations (Share F)) :=
  if p.d ≠ 5 then panicWith "assertion failed" else do
    let numSbox := p.numSbox * numPoseidon
    let r ← (List.range numSbox).mapM fun (_ : Nat) => (Rep3.rand : Rep3M R M (Share F))
    let r2 ← Rep3.mulVec r r
    let r4 ← Rep3.mulVec r2 r2
    let r35 ← Rep3.mulVec (r ++ r) (r2 ++ r4)
    pure ⟨r, r2, r35.take numSbox, r4, r35.drop numSbox, 0⟩

/-- `/repo/mpc-core/src/gadgets/poseidon2/rep3.rs:54-69` -/
def precomputeRep3Additive (p : Params F) (numPoseidon : Nat) : Rep3M R M (Precomputations F) := do
  let res ← precomputeRep3 p numPoseidon
  pure ⟨res.r.map Share.a, res.r2.map Share.a, res.r3.map Share.a, res.r4.map Share.a, res.r5.map Share.a,
    res.offset⟩

/-- `/repo/mpc-core/src/gadgets/poseidon2/rep3.rs:183-204` -/
def addRcExternalRep3 (p : Params F) (r : Nat) (id : PartyID) (input : List (Share F)) : List (Share F) :=
  match id with
  | ID0 => List.zipWith (fun s rc => { s with a := s.a + rc }) input (p.rcExternal.getD r [])
  | ID1 => List.zipWith (fun s rc => { s with b := s.b + rc }) input (p.rcExternal.getD r [])
  | ID2 => input

/-- `/repo/mpc-core/src/gadgets/poseidon2/rep3.rs:505-509` -/
def addRcInternalRep3 (p : Params F) (r : Nat) (id : PartyID) (input : List (Share F)) : List (Share F) :=
  match id with
  | ID0 => onFirst (fun s => { s with a := s.a + p.rcInternal.getD r 0 }) input
  | ID1 => onFirst (fun s => { s with b := s.b + p.rcInternal.getD r 0 }) input
  | ID2 => input

/-- `/repo/mpc-core/src/gadgets/poseidon2/rep3.rs:206-218` -/
def reshareStateRep3 (input : List F) : Rep3M R M (List (Share F)) := do
  let input ← input.mapM fun (x : F) => do
    let m ← (Rep3.maskElem : Rep3M R M F)
    pure (x + m)
  let b ← Rep3.reshareMany input
  pure (List.zipWith Share.mk input b)

/-- `/repo/mpc-core/src/gadgets/poseidon2/rep3.rs:358-388` -/
def sboxPostRep3 (y : F) (q : Share F × Share F × Share F × Share F × Share F) (id : PartyID) : Share F :=
  let (r, r2, r3, r4, r5) := q
  let y2 := y * y
  let y3 := y2 * y
  let y4 := y2 * y2
  let res := r5
  let res := res + r4.scale (5 * y)
  let res := res + r3.scale (10 * y2)
  let res := res + r2.scale (10 * y3)
  let res := res + r.scale (5 * y4)
  match id with
  | ID0 => { res with a := res.a + y4 * y }
  | ID1 => { res with b := res.b + y4 * y }
  | ID2 => res

/-- `/repo/mpc-core/src/gadgets/poseidon2/rep3.rs:390-417` -/
def sboxPostAdditive (y : F) (q : F × F × F × F × F) (id : PartyID) : F :=
  let (r, r2, r3, r4, r5) := q
  let y2 := y * y
  let y3 := y2 * y
  let y4 := y2 * y2
  let res := r5
  let res := res + y * r4 * 5
  let res := res + y2 * r3 * 10
  let res := res + y3 * r2 * 10
  let res := res + y4 * r * 5
  if id = ID0 then res + y4 * y else res

/-- `/repo/mpc-core/src/gadgets/poseidon2/rep3.rs:220-243` -/
def sboxPrecompRep3 (input : List (Share F)) (pre : Precomputations (Share F)) :
    Rep3M R M (List (Share F) × Precomputations (Share F)) := do
  let qs ← orPanic (pre.slice input.length)
  let y ← Rep3.openVec (List.zipWith (fun x (q : Share F × _) => x - q.1) input qs)
  let id ← MPC.netId
  pure (List.zipWith (fun y q => sboxPostRep3 y q id) y qs, pre.advance input.length)

/-- `/repo/mpc-core/src/gadgets/poseidon2/rep3.rs:245-273` -/
def sboxPrecompAdditive (input : List F) (pre : Precomputations F) :
    Rep3M R M (List F × Precomputations F) := do
  let qs ← orPanic (pre.slice input.length)
  let input' := List.zipWith (fun x (q : F × _) => x - q.1) input qs
  let id ← MPC.netId
  let (b, c) ← Rep3.broadcastMany input'
  let y := List.zipWith (fun b ci => b + ci) b (List.zipWith (fun c i => c + i) c input')
  pure (List.zipWith (fun y q => sboxPostAdditive y q id) y qs, pre.advance input.length)

/-- The entry the single S-box uses. -/
def oneEntry {ι σ α : Type} : List α → MPC ι σ M Err α
  | [x] => pure x
  | _ => panicWith "index out of bounds"

/-- `/repo/mpc-core/src/gadgets/poseidon2/rep3.rs:275-294`, applied to the first element of the state
(`:510`); `state[0]` panics on an empty state. -/
def firstSboxPrecompRep3 (state : List (Share F)) (pre : Precomputations (Share F)) :
    Rep3M R M (List (Share F) × Precomputations (Share F)) :=
  match state with
  | [] => panicWith "index out of bounds"
  | input :: rest => do
    let qs ← orPanic (pre.slice 1)
    let q ← oneEntry qs
    let input := input - q.1
    let id ← MPC.netId
    let y ← Rep3.openShare input
    pure (sboxPostRep3 y q id :: rest, pre.advance 1)

/-- `/repo/mpc-core/src/gadgets/poseidon2/rep3.rs:296-310` -/
def singleSboxPrecompPacked (t : Nat) (input : List (Share F)) (pre : Precomputations (Share F)) :
    Rep3M R M (List (Share F) × Precomputations (Share F)) := do
  let (vec, pre) ← sboxPrecompRep3 (stepBy t input) pre
  pure (setBy t input vec, pre)

/-- `/repo/mpc-core/src/gadgets/poseidon2/rep3.rs:312-333`, applied to the first element of the state (`:607`). -/
def firstSboxRep3 (state : List F) : Rep3M R M (List F) :=
  match state with
  | [] => panicWith "index out of bounds"
  | input :: rest => do
    let m ← Rep3.maskElem
    let inputA := input + m
    let inputB ← Rep3.reshare inputA
    let share : Share F := ⟨inputA, inputB⟩
    let sq ← Rep3.mul share share
    let qu ← Rep3.mul sq sq
    pure (qu.localMul share :: rest)

/-- `/repo/mpc-core/src/gadgets/poseidon2/rep3.rs:335-356`, applied to the first element of the state
(`:476`). -/
def firstSboxPrecompAdditive (state : List F) (pre : Precomputations F) :
    Rep3M R M (List F × Precomputations F) :=
  match state with
  | [] => panicWith "index out of bounds"
  | input :: rest => do
    let qs ← orPanic (pre.slice 1)
    let q ← oneEntry qs
    let input := input - q.1
    let id ← MPC.netId
    let (b, c) ← Rep3.broadcast input
    let y := b + (c + input)
    pure (sboxPostAdditive y q id :: rest, pre.advance 1)

/-- `/repo/mpc-core/src/gadgets/poseidon2/rep3.rs:430-445` -/
def sboxFirstRep3 (input : List (Share F)) : Rep3M R M (List F) := do
  let sq ← Rep3.mulVec input input
  let qu ← Rep3.mulVec sq sq
  pure (List.zipWith Share.localMul qu input)

/-- `/repo/mpc-core/src/gadgets/poseidon2/rep3.rs:419-428` -/
def sboxRep3 (input : List F) : Rep3M R M (List F) := do
  let shares ← reshareStateRep3 input
  sboxFirstRep3 shares

/-- `/repo/mpc-core/src/gadgets/poseidon2/rep3.rs:482-494` -/
def externalRoundPrecomp (p : Params F) (r : Nat) (s : List (Share F) × Precomputations (Share F)) :
    Rep3M R M (List (Share F) × Precomputations (Share F)) := do
  let id ← MPC.netId
  let (state, pre) ← sboxPrecompRep3 (addRcExternalRep3 p r id s.1) s.2
  pure (matmulExternal state, pre)

/-- `/repo/mpc-core/src/gadgets/poseidon2/rep3.rs:497-513` -/
def internalRoundPrecomp (p : Params F) (r : Nat) (s : List (Share F) × Precomputations (Share F)) :
    Rep3M R M (List (Share F) × Precomputations (Share F)) := do
  let id ← MPC.netId
  let (state, pre) ← firstSboxPrecompRep3 (addRcInternalRep3 p r id s.1) s.2
  pure (matmulInternal p.diagM1 state, pre)

/-- `/repo/mpc-core/src/gadgets/poseidon2/rep3.rs:516-549` -/
def externalRoundPrecompPacked (p : Params F) (r : Nat) (s : List (Share F) × Precomputations (Share F)) :
    Rep3M R M (List (Share F) × Precomputations (Share F)) := do
  let id ← MPC.netId
  let (state, pre) ← sboxPrecompRep3 (mapChunks (addRcExternalRep3 p r id) p.t s.1) s.2
  pure (mapChunks matmulExternal p.t state, pre)

/-- `/repo/mpc-core/src/gadgets/poseidon2/rep3.rs:552-575` -/
def internalRoundPrecompPacked (p : Params F) (r : Nat) (s : List (Share F) × Precomputations (Share F)) :
    Rep3M R M (List (Share F) × Precomputations (Share F)) := do
  let id ← MPC.netId
  let (state, pre) ← singleSboxPrecompPacked p.t (mapChunks (addRcInternalRep3 p r id) p.t s.1) s.2
  pure (mapChunks (matmulInternal p.diagM1) p.t state, pre)

/-- Only party 0 adds the constants to additive shares.
`/repo/mpc-core/src/gadgets/poseidon2/rep3.rs:455-458` and the other rounds on additive shares. -/
def onParty0 {α : Type} (id : PartyID) (f : α → α) (x : α) : α := if id = ID0 then f x else x

/-- `/repo/mpc-core/src/gadgets/poseidon2/rep3.rs:448-462` -/
def externalRoundPrecompAdditive (p : Params F) (r : Nat) (s : List F × Precomputations F) :
    Rep3M R M (List F × Precomputations F) := do
  let id ← MPC.netId
  let (state, pre) ← sboxPrecompAdditive (onParty0 id (addRcExternal p r) s.1) s.2
  pure (matmulExternal state, pre)

/-- `/repo/mpc-core/src/gadgets/poseidon2/rep3.rs:465-479` -/
def internalRoundPrecompAdditive (p : Params F) (r : Nat) (s : List F × Precomputations F) :
    Rep3M R M (List F × Precomputations F) := do
  let id ← MPC.netId
  let (state, pre) ← firstSboxPrecompAdditive (onParty0 id (addRcInternal p r) s.1) s.2
  pure (matmulInternal p.diagM1 state, pre)

/-- `/repo/mpc-core/src/gadgets/poseidon2/rep3.rs:578-592` -/
def externalRoundRep3 (p : Params F) (r : Nat) (state : List F) : Rep3M R M (List F) := do
  let id ← MPC.netId
  let state ← sboxRep3 (onParty0 id (addRcExternal p r) state)
  pure (matmulExternal state)

/-- `/repo/mpc-core/src/gadgets/poseidon2/rep3.rs:595-609` -/
def internalRoundRep3 (p : Params F) (r : Nat) (state : List F) : Rep3M R M (List F) := do
  let id ← MPC.netId
  let state ← firstSboxRep3 (onParty0 id (addRcInternal p r) state)
  pure (matmulInternal p.diagM1 state)

/-- The assertions `D == 5` and on the state size, which the code meets in the first linear layer and in the
S-boxes. -/
def checked {ι σ α : Type} (p : Params F) (prog : MPC ι σ M Err α) : MPC ι σ M Err α :=
  if ValidSize p.t ∧ p.d = 5 then prog else panicWith "assertion failed"

/-- `rep3_permutation_in_place_with_precomputation_packed`,
`/repo/mpc-core/src/gadgets/poseidon2/rep3.rs:612-648`, `789-799` -/
def permutationPacked (p : Params F) (state : List (Share F)) (pre : Precomputations (Share F)) :
    Rep3M R M (List (Share F) × Precomputations (Share F)) :=
  checked p (if state.length % p.t ≠ 0 then panicWith "assertion failed" else
    rounds p (externalRoundPrecompPacked p) (internalRoundPrecompPacked p)
      (mapChunks matmulExternal p.t state, pre))

/-- `rep3_permutation_in_place_with_precomputation`,
`/repo/mpc-core/src/gadgets/poseidon2/rep3.rs:651-682`, `776-786` -/
def permutationPrecomp (p : Params F) (state : List (Share F)) (pre : Precomputations (Share F)) :
    Rep3M R M (List (Share F) × Precomputations (Share F)) :=
  checked p (rounds p (externalRoundPrecomp p) (internalRoundPrecomp p) (matmulExternal state, pre))

/-- `rep3_permutation_additive_in_place_with_precomputation`,
`/repo/mpc-core/src/gadgets/poseidon2/rep3.rs:685-722`, `802-815` -/
def permutationAdditive (p : Params F) (state : List (Share F)) (pre : Precomputations F) :
    Rep3M R M (List (Share F) × Precomputations F) :=
  checked p (do
    let (state, pre) ← rounds p (externalRoundPrecompAdditive p) (internalRoundPrecompAdditive p)
      (matmulExternal (state.map Share.a), pre)
    let state ← reshareStateRep3 state
    pure (state, pre))

/-- `rep3_permutation_in_place`, `/repo/mpc-core/src/gadgets/poseidon2/rep3.rs:725-773`.  The first external round is
written out; the loop of the first external rounds starts at 1. -/
def permutationRep3 (p : Params F) (state : List (Share F)) : Rep3M R M (List (Share F)) :=
  checked p (do
    let id ← MPC.netId
    let state ← sboxFirstRep3 (addRcExternalRep3 p 0 id (matmulExternal state))
    let state := matmulExternal state
    let state ← (List.range' 1 (p.roundsFBeginning - 1)).foldlM (fun s r => externalRoundRep3 p r s) state
    let state ← (List.range p.roundsP).foldlM (fun s r => internalRoundRep3 p r s) state
    let state ← (List.range' p.roundsFBeginning p.roundsFEnd).foldlM (fun s r => externalRoundRep3 p r s) state
    reshareStateRep3 state)

end Rep3

/-! ## Shamir shares

A share is a field element (`repr(transparent)`, `transmute_shamir_state`), so the linear layers and the addition of
the round constants are those in the clear. -/

section Shamir

open Shamir (ShamirM)

variable [Field F] [Sample R F] [Codec M F] [Codec M (List F)]

/-- `/repo/mpc-core/src/gadgets/poseidon2/shamir.rs:15-25` -/
def randRequired (p : Params F) (numPoseidon : Nat) (precomputation : Bool) : Nat :=
  p.numSbox * (if precomputation then 3 + 2 else 3) * numPoseidon

/-- `/repo/mpc-core/src/gadgets/poseidon2/shamir.rs:35-73` -/
def precomputeShamir (p : Params F) (numPoseidon : Nat) : ShamirM n R F M (Precomputations F) :=
  if p.d ≠ 5 then panicWith "assertion failed" else do
    let numSbox := p.numSbox * numPoseidon
    let r ← (List.range numSbox).mapM fun (_ : Nat) => (Shamir.rand : ShamirM n R F M F)
    let r2 ← Shamir.mulVec r r
    let r4 ← Shamir.mulVec r2 r2
    let r35 ← Shamir.mulVec (r ++ r) (r2 ++ r4)
    pure ⟨r, r2, r35.take numSbox, r4, r35.drop numSbox, 0⟩

/-- `/repo/mpc-core/src/gadgets/poseidon2/shamir.rs:137-153` -/
def sboxPostShamir (y : F) (q : F × F × F × F × F) : F :=
  let (r, r2, r3, r4, r5) := q
  let y2 := y * y
  let y3 := y2 * y
  let y4 := y2 * y2
  let y5 := y4 * y
  let res := y5
  let res := res + y4 * r * 5
  let res := res + y3 * r2 * 10
  let res := res + y2 * r3 * 10
  let res := res + y * r4 * 5
  res + r5

/-- `/repo/mpc-core/src/gadgets/poseidon2/shamir.rs:75-101` -/
def sboxPrecompShamir (input : List F) (pre : Precomputations F) :
    ShamirM n R F M (List F × Precomputations F) := do
  let qs ← orPanic (pre.slice input.length)
  let y ← Shamir.openVec (List.zipWith (fun x (q : F × _) => x - q.1) input qs)
  pure (List.zipWith sboxPostShamir y qs, pre.advance input.length)

/-- `/repo/mpc-core/src/gadgets/poseidon2/shamir.rs:103-118`, applied to the first element (`:252`). -/
def firstSboxPrecompShamir (state : List F) (pre : Precomputations F) :
    ShamirM n R F M (List F × Precomputations F) :=
  match state with
  | [] => panicWith "index out of bounds"
  | input :: rest => do
    let qs ← orPanic (pre.slice 1)
    let q ← oneEntry qs
    let y ← Shamir.openShare (input - q.1)
    pure (sboxPostShamir y q :: rest, pre.advance 1)

/-- `/repo/mpc-core/src/gadgets/poseidon2/shamir.rs:120-135` -/
def singleSboxPrecompPackedShamir (t : Nat) (input : List F) (pre : Precomputations F) :
    ShamirM n R F M (List F × Precomputations F) := do
  let (vec, pre) ← sboxPrecompShamir (stepBy t input) pre
  pure (setBy t input vec, pre)

/-- `/repo/mpc-core/src/gadgets/poseidon2/shamir.rs:155-177` -/
def sboxShamir (input : List F) : ShamirM n R F M (List F) := do
  let sq ← Shamir.degreeReduceMany (input.map fun i => i * i)
  let qu ← Shamir.degreeReduceMany (sq.map fun x => x * x)
  Shamir.degreeReduceMany (List.zipWith (· * ·) qu input)

/-- `/repo/mpc-core/src/gadgets/poseidon2/shamir.rs:179-197`, applied to the first element (`:320`). -/
def firstSboxShamir (state : List F) : ShamirM n R F M (List F) :=
  match state with
  | [] => panicWith "index out of bounds"
  | input :: rest => do
    let sq ← Shamir.degreeReduce (input * input)
    let qu ← Shamir.degreeReduce (sq * sq)
    let res ← Shamir.degreeReduce (qu * input)
    pure (res :: rest)

/-- `/repo/mpc-core/src/gadgets/poseidon2/shamir.rs:199-226` -/
def externalRoundPrecompShamir (p : Params F) (r : Nat) (s : List F × Precomputations F) :
    ShamirM n R F M (List F × Precomputations F) := do
  let (state, pre) ← sboxPrecompShamir (addRcExternal p r s.1) s.2
  pure (matmulExternal state, pre)

/-- `/repo/mpc-core/src/gadgets/poseidon2/shamir.rs:228-255` -/
def internalRoundPrecompShamir (p : Params F) (r : Nat) (s : List F × Precomputations F) :
    ShamirM n R F M (List F × Precomputations F) := do
  let (state, pre) ← firstSboxPrecompShamir (addRcInternal p r s.1) s.2
  pure (matmulInternal p.diagM1 state, pre)

/-- `/repo/mpc-core/src/gadgets/poseidon2/shamir.rs:257-275` -/
def externalRoundPackedShamir (p : Params F) (r : Nat) (s : List F × Precomputations F) :
    ShamirM n R F M (List F × Precomputations F) := do
  let (state, pre) ← sboxPrecompShamir (mapChunks (addRcExternal p r) p.t s.1) s.2
  pure (mapChunks matmulExternal p.t state, pre)

/-- `/repo/mpc-core/src/gadgets/poseidon2/shamir.rs:277-295` -/
def internalRoundPackedShamir (p : Params F) (r : Nat) (s : List F × Precomputations F) :
    ShamirM n R F M (List F × Precomputations F) := do
  let (state, pre) ← singleSboxPrecompPackedShamir p.t (mapChunks (addRcInternal p r) p.t s.1) s.2
  pure (mapChunks (matmulInternal p.diagM1) p.t state, pre)

/-- `/repo/mpc-core/src/gadgets/poseidon2/shamir.rs:297-309` -/
def externalRoundShamir (p : Params F) (r : Nat) (state : List F) : ShamirM n R F M (List F) := do
  let state ← sboxShamir (addRcExternal p r state)
  pure (matmulExternal state)

/-- `/repo/mpc-core/src/gadgets/poseidon2/shamir.rs:311-323` -/
def internalRoundShamir (p : Params F) (r : Nat) (state : List F) : ShamirM n R F M (List F) := do
  let state ← firstSboxShamir (addRcInternal p r state)
  pure (matmulInternal p.diagM1 state)

/-- `shamir_permutation_in_place_with_precomputation_packed`,
`/repo/mpc-core/src/gadgets/poseidon2/shamir.rs:326-364`, `462-477` -/
def permutationPackedShamir (p : Params F) (state : List F) (pre : Precomputations F) :
    ShamirM n R F M (List F × Precomputations F) :=
  checked p (if state.length % p.t ≠ 0 then panicWith "assertion failed" else
    rounds p (externalRoundPackedShamir p) (internalRoundPackedShamir p)
      (mapChunks matmulExternal p.t state, pre))

/-- `shamir_permutation_in_place_with_precomputation`,
`/repo/mpc-core/src/gadgets/poseidon2/shamir.rs:367-399`, `444-459` -/
def permutationPrecompShamir (p : Params F) (state : List F) (pre : Precomputations F) :
    ShamirM n R F M (List F × Precomputations F) :=
  checked p (rounds p (externalRoundPrecompShamir p) (internalRoundPrecompShamir p)
    (matmulExternal state, pre))

/-- `shamir_permutation_in_place`, `/repo/mpc-core/src/gadgets/poseidon2/shamir.rs:402-441` -/
def permutationShamir (p : Params F) (state : List F) : ShamirM n R F M (List F) :=
  checked p (rounds p (externalRoundShamir p) (internalRoundShamir p) (matmulExternal state))

end Shamir

end Poseidon2
end Verif
