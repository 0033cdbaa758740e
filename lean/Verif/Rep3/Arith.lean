import Verif.Rep3.Share
import Mathlib.Algebra.Field.Defs
import Mathlib.Data.ZMod.Defs

/-!
# Arithmetic on replicated shares

Models `/repo/mpc-core/src/protocols/rep3/arithmetic.rs` and
`/repo/mpc-core/src/protocols/rep3/arithmetic/{ops,types}.rs`.  The functions of
`/repo/mpc-core/src/protocols/rep3_ring/arithmetic.rs` with the same names have the same bodies, over
`RingElement<T>` (wrapping unsigned integers) instead of a prime field; they are covered by taking
`F = BitVec k` here.  Where the bodies differ there is a separate definition.
-/

namespace Verif

open PartyID
open MPC (bail panicWith)

namespace Share

variable {F : Type}

/-- `/repo/mpc-core/src/protocols/rep3/arithmetic/ops.rs:5-38` -/
instance [Add F] : Add (Share F) := ⟨fun x y => ⟨x.a + y.a, x.b + y.b⟩⟩
/-- `/repo/mpc-core/src/protocols/rep3/arithmetic/ops.rs:40-67` -/
instance [Sub F] : Sub (Share F) := ⟨fun x y => ⟨x.a - y.a, x.b - y.b⟩⟩
/-- `/repo/mpc-core/src/protocols/rep3/arithmetic/ops.rs:116-125` -/
instance [Neg F] : Neg (Share F) := ⟨fun x => ⟨-x.a, -x.b⟩⟩

/-- Local part of a multiplication. `/repo/mpc-core/src/protocols/rep3/arithmetic/ops.rs:69-76`,
`100-107` -/
def localMul [Add F] [Mul F] (x y : Share F) : F := x.a * y.a + x.a * y.b + x.b * y.a

/-- `/repo/mpc-core/src/protocols/rep3/arithmetic/ops.rs:78-98`, `109-114` -/
def scale [Mul F] (x : Share F) (c : F) : Share F := ⟨x.a * c, x.b * c⟩

/-- `/repo/mpc-core/src/protocols/rep3/arithmetic/types.rs:43-48`; also `Default`, `Zero`. -/
def zeroShare [Zero F] : Share F := ⟨0, 0⟩

/-- `/repo/mpc-core/src/protocols/rep3/arithmetic/types.rs:56-67` -/
def double [Add F] (x : Share F) : Share F := ⟨x.a + x.a, x.b + x.b⟩

/-- `/repo/mpc-core/src/protocols/rep3/arithmetic/types.rs:75-82` -/
def promoteWithScalar [Neg F] (val scalar : F) : PartyID → Share F
  | ID0 => ⟨val, -scalar⟩
  | ID1 => ⟨scalar, val⟩
  | ID2 => ⟨-scalar, scalar⟩

/-- `/repo/mpc-core/src/protocols/rep3/arithmetic/types.rs:70-72` -/
def promoteFromTrivial [Neg F] [Zero F] (val : F) (id : PartyID) : Share F :=
  promoteWithScalar val 0 id

end Share

namespace Rep3

variable {R M F : Type}

/-! ### Local operations -/

/-- `/repo/mpc-core/src/protocols/rep3/arithmetic.rs:31-38` (`add`, `add_assign`) -/
def add [Add F] (a b : Share F) : Share F := a + b

/-- `/repo/mpc-core/src/protocols/rep3/arithmetic.rs:41-58` (`add_public`, `add_assign_public`) -/
def addPublic [Add F] (shared : Share F) (pub : F) : PartyID → Share F
  | ID0 => { shared with a := shared.a + pub }
  | ID1 => { shared with b := shared.b + pub }
  | ID2 => shared

/-- `/repo/mpc-core/src/protocols/rep3/arithmetic.rs:61-65`: positions beyond the shorter vector
keep the left value. -/
def addVecAssign [Add F] : List (Share F) → List (Share F) → List (Share F)
  | x :: xs, y :: ys => (x + y) :: addVecAssign xs ys
  | xs, [] => xs
  | [], _ => []

/-- `/repo/mpc-core/src/protocols/rep3/arithmetic.rs:68-75` -/
def sub [Sub F] (a b : Share F) : Share F := a - b

/-- `/repo/mpc-core/src/protocols/rep3/arithmetic.rs:78-82` -/
def subVecAssign [Sub F] : List (Share F) → List (Share F) → List (Share F)
  | x :: xs, y :: ys => (x - y) :: subVecAssign xs ys
  | xs, [] => xs
  | [], _ => []

/-- `/repo/mpc-core/src/protocols/rep3/arithmetic.rs:85-91` -/
def subSharedByPublic [Add F] [Neg F] (shared : Share F) (pub : F) (id : PartyID) : Share F :=
  addPublic shared (-pub) id

/-- `/repo/mpc-core/src/protocols/rep3/arithmetic.rs:94-100` -/
def subPublicByShared [Add F] [Neg F] (pub : F) (shared : Share F) (id : PartyID) : Share F :=
  addPublic (-shared) pub id

/-- `/repo/mpc-core/src/protocols/rep3/arithmetic.rs:118-125` -/
def mulPublic [Mul F] (shared : Share F) (pub : F) : Share F := shared.scale pub

/-- `/repo/mpc-core/src/protocols/rep3/arithmetic.rs:211-213` -/
def neg [Neg F] (a : Share F) : Share F := -a

/-- `/repo/mpc-core/src/protocols/rep3/arithmetic.rs:304-306` -/
def addMulPublic [Add F] [Mul F] (a b : Share F) (c : F) : Share F := add a (mulPublic b c)

/-- `/repo/mpc-core/src/protocols/rep3/arithmetic.rs:321-327` -/
def promoteToTrivialShare [Zero F] (id : PartyID) (v : F) : Share F :=
  match id with
  | ID0 => ⟨v, 0⟩
  | ID1 => ⟨0, v⟩
  | ID2 => Share.zeroShare

/-- `/repo/mpc-core/src/protocols/rep3/arithmetic.rs:189-198` -/
def divSharedByPublic [Field F] [DecidableEq F] (shared : Share F) (pub : F) :
    Except Err (Share F) :=
  if pub = 0 then .error (.err "Cannot invert zero") else .ok (mulPublic shared pub⁻¹)

/-! ### Operations with communication -/

section Comm

variable [CommRing F] [Sample R F] [Codec M (List F)]

/-- `state.rngs.rand.masking_field_element()` -/
def maskElem : Rep3M R M F := withRand (Rep3Rand.masking (α := F))

/-- `/repo/mpc-core/src/protocols/rep3/arithmetic.rs:103-115` -/
def mul (a b : Share F) : Rep3M R M (Share F) := do
  let m ← maskElem
  let localA := a.localMul b + m
  let localB ← reshare localA
  pure ⟨localA, localB⟩

/-- `/repo/mpc-core/src/protocols/rep3/arithmetic.rs:132-146`; unequal lengths panic (`zip_eq`).
The parallel iteration is a pure map and order independent. -/
def localMulVec [SampleVec R F] (lhs rhs : List (Share F)) : Rep3M R M (List F) := do
  let masks ← withRand (fun g => g.maskingFieldVec lhs.length)
  if lhs.length ≠ rhs.length then panicWith "zip_eq"
  else pure (List.zipWith (fun (lr : Share F × Share F) m => lr.1.localMul lr.2 + m)
    (lhs.zip rhs) masks)

/-- `/repo/mpc-core/src/protocols/rep3/arithmetic.rs:149-160` -/
def reshareVec (localA : List F) : Rep3M R M (List (Share F)) := do
  let localB ← reshareMany localA
  if localB.length ≠ localA.length then
    bail "During execution of mul_vec in MPC: Invalid number of elements received"
  else pure (List.zipWith Share.mk localA localB)

/-- `/repo/mpc-core/src/protocols/rep3/arithmetic.rs:165-176`. The `debug_assert` on the lengths is
not modelled (release build): `izip!` stops at the shorter vector. -/
def mulVec (lhs rhs : List (Share F)) : Rep3M R M (List (Share F)) := do
  let localA ← (lhs.zip rhs).mapM fun (lr : Share F × Share F) => do
    let m ← maskElem
    pure (lr.1.localMul lr.2 + m)
  reshareVec localA

/-- `/repo/mpc-core/src/protocols/rep3/arithmetic.rs:249-252` -/
def openShare (a : Share F) : Rep3M R M F := do
  let c ← reshare a.b
  pure (a.a + a.b + c)

/-- `/repo/mpc-core/src/protocols/rep3/arithmetic.rs:261-271`; `izip!` stops at the shortest. -/
def openVec (a : List (Share F)) : Rep3M R M (List F) := do
  let c ← reshareMany (a.map Share.b)
  pure (List.zipWith (fun (s : Share F) c => s.a + s.b + c) a c)

/-- `/repo/mpc-core/src/protocols/rep3/arithmetic.rs:274-284` -/
def cmux (cond truthy falsy : Share F) : Rep3M R M (Share F) := do
  let d ← mul cond (sub truthy falsy)
  pure (add falsy d)

/-- `/repo/mpc-core/src/protocols/rep3/arithmetic.rs:287-301` -/
def cmuxVec (cond : Share F) (truthy falsy : List (Share F)) : Rep3M R M (List (Share F)) := do
  let resultA ← (truthy.zip falsy).mapM fun (tf : Share F × Share F) => do
    let m ← maskElem
    pure ((sub tf.1 tf.2).localMul cond + tf.2.a + m)
  reshareVec resultA

/-- `/repo/mpc-core/src/protocols/rep3/arithmetic.rs:309-318` -/
def addMul (a b c : Share F) : Rep3M R M (Share F) := do
  let m ← mul c b
  pure (add a m)

/-- `/repo/mpc-core/src/protocols/rep3/arithmetic.rs:330-339` -/
def mulOpen (a b : Share F) : Rep3M R M F := do
  let m ← maskElem
  let a := a.localMul b + m
  let (b, c) ← broadcast a
  pure (a + b + c)

/-- `/repo/mpc-core/src/protocols/rep3/arithmetic.rs:342-354`. Positions beyond the received vectors
keep the local value. -/
def addBoth : List F → List F → List F → List F
  | a :: as, b :: bs, c :: cs => (a + (b + c)) :: addBoth as bs cs
  | as, _, _ => as

/-- `/repo/mpc-core/src/protocols/rep3/arithmetic.rs:342-354` -/
def mulOpenVec (a b : List (Share F)) : Rep3M R M (List F) := do
  let a ← (a.zip b).mapM fun (ab : Share F × Share F) => do
    let m ← maskElem
    pure (ab.1.localMul ab.2 + m)
  let (b, c) ← broadcastMany a
  pure (addBoth a b c)

/-- `/repo/mpc-core/src/protocols/rep3/arithmetic.rs:357-360` -/
def rand : Rep3M R M (Share F) := do
  let (a, b) ← withRand (Rep3Rand.randomPair (α := F))
  pure ⟨a, b⟩

/-- `/repo/mpc-core/src/protocols/rep3/arithmetic.rs:416-422`, the loop of `pow_public`. -/
def powLoop (n : Nat) (res shared : Share F) : Rep3M R M (Share F) :=
  if n = 0 then pure res
  else do
    let res ← if n % 2 = 1 then mul res shared else pure res
    let shared ← mul shared shared
    powLoop (n / 2) res shared
termination_by n
decreasing_by omega

/-- `/repo/mpc-core/src/protocols/rep3/arithmetic.rs:406-424`; `exp` is `public.to_uint()`. -/
def powPublic (shared : Share F) (exp : Nat) : Rep3M R M (Share F) := do
  let id ← stateId
  powLoop exp (promoteToTrivialShare id 1) shared

/-- `/repo/mpc-core/src/protocols/rep3/arithmetic.rs:722-741`; `exp` is `public.to_uint()`, `bits` is
`F::MODULUS_BIT_SIZE`; `none` is the panic. -/
def pow2Public (bits : Nat) (shared : Share F) (exp : Nat) : Option (Share F) :=
  if exp = 0 then some shared
  else if exp ≥ 2 ^ 32 then none
  else if exp ≥ bits then none
  else some (mulPublic shared (2 ^ exp))

/-- `/repo/mpc-core/src/protocols/rep3/arithmetic.rs:744-757` -/
def arithmeticXor (x y : Share F) : Rep3M R M (Share F) := do
  let m ← maskElem
  let d := x.localMul y + m
  let d := d + d
  let e := x.a + y.a
  let resA := e - d
  let resB ← reshare resA
  pure ⟨resA, resB⟩

/-- `/repo/mpc-core/src/protocols/rep3/arithmetic.rs:760-784` -/
def arithmeticXorMany (x y : List (Share F)) : Rep3M R M (List (Share F)) := do
  let a ← (x.zip y).mapM fun (xy : Share F × Share F) => do
    let m ← maskElem
    let d := xy.1.localMul xy.2 + m
    let d := d + d
    let e := xy.1.a + xy.2.a
    pure (e - d)
  let b ← reshareMany a
  pure (List.zipWith Share.mk a b)

/-- Add a received vector to one component; positions not received stay.
`/repo/mpc-core/src/protocols/rep3/arithmetic.rs:827-829` -/
def addToA : List (Share F) → List F → List (Share F)
  | s :: ss, r :: rs => { s with a := s.a + r } :: addToA ss rs
  | ss, _ => ss

/-- `/repo/mpc-core/src/protocols/rep3/arithmetic.rs:840-842` -/
def addToB : List (Share F) → List F → List (Share F)
  | s :: ss, r :: rs => { s with b := s.b + r } :: addToB ss rs
  | ss, _ => ss

/-- `/repo/mpc-core/src/protocols/rep3/arithmetic.rs:788-845` -/
def reshareFrom2To3Parties (input : Option (List (Share F))) (len : Nat) (recipient : PartyID) :
    Rep3M R M (List (Share F)) := do
  let id ← stateId
  if id = recipient then
    (List.range len).mapM fun _ => do
      let (a, b) ← withRand (Rep3Rand.randomPair (α := F))
      pure (Share.mk a b)
  else
    match input with
    | none => bail "During execution of reshare_from_2_to_3_parties in MPC: input is None"
    | some input =>
      if input.length ≠ len then
        bail "During execution of reshare_from_2_to_3_parties in MPC: input length does not match"
      else if id = recipient.next then do
        let result ← input.mapM fun (inp : Share F) => do
          let beta := inp.a + inp.b
          let b ← withRand (Rep3Rand.draw2 (α := F))
          pure (Share.mk (beta - b) b)
        let rcv ← sendAndRecvMany id.next (result.map Share.a) id.next
        pure (addToA result rcv)
      else do
        let result ← input.mapM fun (inp : Share F) => do
          let beta := inp.a
          let a ← withRand (Rep3Rand.draw1 (α := F))
          pure (Share.mk a (beta - a))
        let rcv ← sendAndRecvMany id.prev (result.map Share.b) id.prev
        pure (addToB result rcv)

end Comm

section FieldOps

variable [Field F] [DecidableEq F] [Sample R F] [Codec M (List F)]

/-- `/repo/mpc-core/src/protocols/rep3/arithmetic.rs:216-230` -/
def inv (a : Share F) : Rep3M R M (Share F) := do
  let r ← rand
  let y ← mulOpen a r
  if y = 0 then
    bail "During execution of inverse in MPC: cannot compute inverse of zero"
  else pure (r.scale y⁻¹)

/-- `/repo/mpc-core/src/protocols/rep3/arithmetic.rs:233-246` -/
def invVec (a : List (Share F)) : Rep3M R M (List (Share F)) := do
  let r ← (List.range a.length).mapM fun _ => rand
  let y ← mulOpenVec a r
  if y.any (· = 0) then
    bail "During execution of inverse in MPC: cannot compute inverse of zero"
  else pure (List.zipWith (fun (r : Share F) y => r.scale y⁻¹) r y)

/-- `/repo/mpc-core/src/protocols/rep3/arithmetic.rs:179-186` -/
def div (a b : Share F) : Rep3M R M (Share F) := do
  let bi ← inv b
  mul a bi

/-- `/repo/mpc-core/src/protocols/rep3/arithmetic.rs:201-208` -/
def divPublicByShared (pub : F) (shared : Share F) : Rep3M R M (Share F) := do
  let i ← inv shared
  pure (mulPublic i pub)

/-- Square roots in the field (`ark_ff::Field::sqrt`), assumed correct. -/
class HasSqrt (F : Type) [Field F] where
  sqrt : F → Option F
  sqrt_some : ∀ x y, sqrt x = some y → y * y = x
  sqrt_none : ∀ x, sqrt x = none → ¬ ∃ y, y * y = x

/-- `/repo/mpc-core/src/protocols/rep3/arithmetic.rs:363-403` -/
def sqrt [HasSqrt F] (share : Share F) : Rep3M R M (Share F) := do
  let rSqu ← rand
  let rInv ← rand
  let rr ← mul rSqu rSqu
  let m ← mulVec [rr, rSqu] [share, rInv]
  let c ← reshareMany (m.map Share.b)
  match m, c with
  | [m0, m1], [c0, c1] =>
    let ySq := HasSqrt.sqrt (m0.a + m0.b + c0)
    let yInv := m1.a + m1.b + c1
    match ySq with
    | none => bail "During execution of square root in MPC: cannot compute square root"
    | some y =>
      if yInv = 0 then bail "During execution of square root in MPC: cannot compute inverse of zero"
      else pure ((rInv.scale yInv⁻¹).scale y)
  | _, _ => bail "During execution of square root in MPC: invalid number of elements received"

end FieldOps

end Rep3

end Verif
