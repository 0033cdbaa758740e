import Verif.Ring.Ring
import Mathlib.Data.Nat.Log

/-!
# One-hot vectors

Models `/repo/mpc-core/src/protocols/rep3_ring/gadgets/ohv.rs`.  `debug_assert!`s are not represented.
-/

namespace Verif.Rep3.Ring

open PartyID
open MPC (bail panicWith)

variable {R M : Type} {k : Nat}

/-- `pack`, `/repo/mpc-core/src/protocols/rep3_ring/gadgets/ohv.rs:76-84` -/
def pack (k : Nat) (input : List (Share (BitVec 1))) : Share (BitVec k) :=
  input.zipIdx.foldl (fun acc bit =>
    ⟨acc.a ||| (bit.1.a.setWidth k <<< bit.2), acc.b ||| (bit.1.b.setWidth k <<< bit.2)⟩) ⟨0#k, 0#k⟩

/-- `unpack`, `/repo/mpc-core/src/protocols/rep3_ring/gadgets/ohv.rs:86-93` -/
def unpack (input : Share (BitVec k)) (len : Nat) : List (Share (BitVec 1)) :=
  (List.range len).map input.getBit

/-- `and_pre_bit`, `/repo/mpc-core/src/protocols/rep3_ring/gadgets/ohv.rs:95-113` -/
def andPreBit [Sample R (BitVec k)] (a : Share (BitVec k)) (b : Share (BitVec 1)) :
    Rep3M R M (BitVec k) := do
  let res ← maskBits
  let res := if b.a = 1#1 then res ^^^ a.a ^^^ a.b else res
  let res := if b.b = 1#1 then res ^^^ a.a else res
  pure res

/-- One arm of `pack_and`: all bits packed into one element of `k` bits.
`/repo/mpc-core/src/protocols/rep3_ring/gadgets/ohv.rs:132-135`, `138-141`, `144-147`, `150-153`, `156-159` -/
def packAndOne (k : Nat) [Sample R (BitVec k)] [UintCodec M k] (input : List (Share (BitVec 1)))
    (rhs : Share (BitVec 1)) : Rep3M R M (List (Share (BitVec 1))) := do
  let localA ← andPreBit (pack k input) rhs
  let localB ← reshare localA
  pure (unpack ⟨localA, localB⟩ input.length)

/-- `input.chunks(n)`: consecutive pieces of length `n`, the last one possibly shorter.  The first argument
bounds the number of pieces. -/
def chunksAux {α : Type} (n : Nat) : Nat → List α → List (List α)
  | 0, _ => []
  | _ + 1, [] => []
  | fuel + 1, l => l.take n :: chunksAux n fuel (l.drop n)

/-- `input.chunks(n)` -/
def chunks {α : Type} (n : Nat) (l : List α) : List (List α) := chunksAux n l.length l

/-- The loop that unpacks the received elements, with the number of remaining bits.
`/repo/mpc-core/src/protocols/rep3_ring/gadgets/ohv.rs:178-183` -/
def unpackLoop (n : Nat) : List (BitVec k × BitVec k) → Nat → List (Share (BitVec 1))
  | [], _ => []
  | (a, b) :: rest, remaining =>
    let rcv := min n remaining
    unpack ⟨a, b⟩ rcv ++ unpackLoop n rest (remaining - rcv)

variable [∀ w, Sample R (BitVec w)] [∀ w, UintCodec M w]

/-- `pack_and`, `/repo/mpc-core/src/protocols/rep3_ring/gadgets/ohv.rs:115-187` -/
def packAnd (input : List (Share (BitVec 1))) (rhs : Share (BitVec 1)) :
    Rep3M R M (List (Share (BitVec 1))) :=
  let len := input.length
  if len ≤ 128 then
    match 2 ^ Nat.clog 2 len with
    | 1 =>
      match input with
      | [] => panicWith "index out of bounds"
      | x :: _ => do
        let z ← and x rhs
        pure [z]
    | 2 => packAndOne 8 input rhs
    | 4 => packAndOne 8 input rhs
    | 8 => packAndOne 8 input rhs
    | 16 => packAndOne 16 input rhs
    | 32 => packAndOne 32 input rhs
    | 64 => packAndOne 64 input rhs
    | 128 => packAndOne 128 input rhs
    | _ => panicWith "unreachable"
  else do
    let toSend ← (chunks 64 input).mapM fun els => andPreBit (pack 64 els) rhs
    let received ← reshare toSend
    pure (unpackLoop 64 (toSend.zip received) len)

/-- `ohv`, `/repo/mpc-core/src/protocols/rep3_ring/gadgets/ohv.rs:46-74`.  For `k = 0` the subtraction `k - 1`
overflows: a panic in a build with overflow checks, unbounded recursion without. -/
def ohv : Nat → Share (BitVec k) → Rep3M R M (List (Share (BitVec 1)))
  | 0, _ => panicWith "attempt to subtract with overflow"
  | newK + 1, bits =>
    let vk := bits.getBit newK
    if newK = 0 then pure [vk.bnot, vk]
    else do
      let mask := (1#k <<< newK) - 1#k
      let f ← ohv newK (bits.andMask mask)
      let e ← packAnd (f.take (f.length - 1)) vk
      let e := e ++ [e.foldl Share.bxor vk]
      let f := List.zipWith Share.bxor f e
      pure (f ++ e)

/-- `rand_ohv`, `/repo/mpc-core/src/protocols/rep3_ring/gadgets/ohv.rs:20-41` -/
def randOhv (k n : Nat) : Rep3M R M (Share (BitVec k) × List (Share (BitVec 1))) := do
  let (a, b) ← withRand (Rep3Rand.randomPair (α := BitVec k))
  let mask := (1#k <<< n) - 1#k
  let bits : Share (BitVec k) := if n ≠ k then ⟨a &&& mask, b &&& mask⟩ else ⟨a, b⟩
  let e ← ohv n bits
  pure (bits, e)

end Verif.Rep3.Ring
