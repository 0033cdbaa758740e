import Verif.CircomVm.Driver
import Verif.Rep3.Conversion
import Verif.Yao.Blueprint
import Verif.Net.Two

/-!
# The Rep3 driver of the circom witness extension VM

The driver holds two networks with one state each.  Only the bit operations on two shares use the second one, in
`mpc_net::join`; all other operations are calls on the first network.

Models: `/repo/co-circom/circom-mpc-vm/src/mpc/rep3.rs`.
-/

namespace Verif.CircomVm

open Rep3
open MPC (bail panicWith)

/-- The values of the Rep3 driver. `/repo/co-circom/circom-mpc-vm/src/mpc/rep3.rs:32-41` -/
abbrev Rep3Val (p : Nat) := VmVal (ZMod p) (Share (ZMod p))

section

variable {R M : Type} {p : Nat}

/-- A call of the plain driver. -/
def lift {α : Type} : Except Err α → Rep3M R M α
  | .ok a => pure a
  | .error e => MPC.throw e

/-- Results of `plain` as VM values. -/
def liftPub (x : Except Err (ZMod p)) : Rep3M R M (Rep3Val p) := do
  let v ← lift x
  pure (.pub v)

/-- `expect`/`assert!` in code that returns no error. -/
def orPanic {α : Type} (msg : String) : Option α → Rep3M R M α
  | some a => pure a
  | none => panicWith msg

/-- `is_power_of_two` of `/repo/co-circom/circom-mpc-vm/src/mpc/rep3.rs:25-28`. -/
def isPowerOfTwo (v : Nat) : Bool := decide (v ≠ 0) && decide (v &&& (v - 1) = 0)

/-- `divisor.bit_len() - 1` for a non-zero divisor. -/
def log2 (v : Nat) : Nat := v.log2

/-- `val` on shares. `/repo/co-circom/circom-mpc-vm/src/mpc/rep3.rs:94-97` -/
def valShare (z : Share (ZMod p)) : Rep3M R M (Share (ZMod p)) := do
  let id ← stateId
  pure (subSharedByPublic z (negativeOne p) id)

/-- `/repo/co-circom/circom-mpc-vm/src/mpc/rep3.rs:114-125` -/
def rep3Add : Rep3Val p → Rep3Val p → Rep3M R M (Rep3Val p)
  | .pub a, .pub b => liftPub (plainBin .add a b)
  | .pub b, .arith a => do
    let id ← stateId
    pure (.arith (addPublic a b id))
  | .arith a, .pub b => do
    let id ← stateId
    pure (.arith (addPublic a b id))
  | .arith a, .arith b => pure (.arith (Rep3.add a b))

/-- `/repo/co-circom/circom-mpc-vm/src/mpc/rep3.rs:127-140` -/
def rep3Sub : Rep3Val p → Rep3Val p → Rep3M R M (Rep3Val p)
  | .pub a, .pub b => liftPub (plainBin .sub a b)
  | .arith a, .pub b => do
    let id ← stateId
    pure (.arith (subSharedByPublic a b id))
  | .pub a, .arith b => do
    let id ← stateId
    pure (.arith (subPublicByShared a b id))
  | .arith a, .arith b => pure (.arith (Rep3.sub a b))

variable [Sample R (ZMod p)] [Codec M (List (ZMod p))]

/-- `/repo/co-circom/circom-mpc-vm/src/mpc/rep3.rs:142-153` -/
def rep3Mul : Rep3Val p → Rep3Val p → Rep3M R M (Rep3Val p)
  | .pub a, .pub b => liftPub (plainBin .mul a b)
  | .pub b, .arith a => pure (.arith (mulPublic a b))
  | .arith a, .pub b => pure (.arith (mulPublic a b))
  | .arith a, .arith b => do
    let r ← Rep3.mul a b
    pure (.arith r)

/-- `/repo/co-circom/circom-mpc-vm/src/mpc/rep3.rs:155-173` -/
def rep3Div [Fact p.Prime] : Rep3Val p → Rep3Val p → Rep3M R M (Rep3Val p)
  | .pub a, .pub b => liftPub (plainBin .div a b)
  | .pub a, .arith b => do
    let b ← Rep3.inv b
    pure (.arith (mulPublic b a))
  | .arith a, .pub b =>
    if b = 0 then bail "Cannot invert zero"
    else pure (.arith (mulPublic a b⁻¹))
  | .arith a, .arith b => do
    let b ← Rep3.inv b
    let r ← Rep3.mul a b
    pure (.arith r)

/-- `/repo/co-circom/circom-mpc-vm/src/mpc/rep3.rs:421-430` -/
def rep3BoolNot [Fact p.Prime] [HasSqrt (ZMod p)] : Rep3Val p → Rep3M R M (Rep3Val p)
  | .pub a => liftPub ((plain p).boolNot a)
  | .arith a => do
    let id ← stateId
    pure (.arith (addPublic (Rep3.neg a) 1 id))

/-- `/repo/co-circom/circom-mpc-vm/src/mpc/rep3.rs:432-437` -/
def rep3BoolAnd : Rep3Val p → Rep3Val p → Rep3M R M (Rep3Val p)
  | .pub a, .pub b => liftPub (plainBin .boolAnd a b)
  | a, b => rep3Mul a b

/-- `/repo/co-circom/circom-mpc-vm/src/mpc/rep3.rs:439-456` -/
def rep3BoolOr : Rep3Val p → Rep3Val p → Rep3M R M (Rep3Val p)
  | .pub a, .pub b => liftPub (plainBin .boolOr a b)
  | .pub b, .arith a => do
    let id ← stateId
    pure (.arith (Rep3.sub (addPublic a b id) (mulPublic a b)))
  | .arith a, .pub b => do
    let id ← stateId
    pure (.arith (Rep3.sub (addPublic a b id) (mulPublic a b)))
  | .arith a, .arith b => do
    let m ← Rep3.mul a b
    pure (.arith (Rep3.sub (Rep3.add a b) m))

/-- `/repo/co-circom/circom-mpc-vm/src/mpc/rep3.rs:458-475` -/
def rep3Cmux : Rep3Val p → Rep3Val p → Rep3Val p → Rep3M R M (Rep3Val p)
  | .pub cond, truthy, falsy => do
    lift (assertBit cond)
    pure (if cond = 1 then truthy else falsy)
  | .arith cond, truthy, falsy => do
    let bMinA ← rep3Sub truthy falsy
    let d ← rep3Mul (.arith cond) bMinA
    rep3Add falsy d

/-- `/repo/co-circom/circom-mpc-vm/src/mpc/rep3.rs:199-210` -/
def rep3Pow : Rep3Val p → Rep3Val p → Rep3M R M (Rep3Val p)
  | .pub a, .pub b => liftPub (plainBin .pow a b)
  | .arith a, .pub b =>
    if b = 0 then pure (.pub 1)
    else do
      let r ← powPublic a b.val
      pure (.arith r)
  | _, _ => panicWith "not yet implemented: pow with shared exponent not implemented"

variable (w : Nat) [Sample R (BitVec w)] [UintCodec M w] [Yao.YaoRng R] [Yao.YaoNet M]

/-- `/repo/co-circom/circom-mpc-vm/src/mpc/rep3.rs:175-197` -/
def rep3IntDiv : Rep3Val p → Rep3Val p → Rep3M R M (Rep3Val p)
  | .pub a, .pub b => liftPub (plainBin .intDiv a b)
  | .pub a, .arith b => do
    let r ← Yao.fieldIntDivByShared w a b
    pure (.arith r)
  | .arith a, .pub b =>
    if isPowerOfTwo b.val then do
      let r ← Yao.fieldIntDivPower2 w a (log2 b.val)
      pure (.arith r)
    else do
      let r ← Yao.fieldIntDivByPublic w a b
      pure (.arith r)
  | .arith a, .arith b => do
    let r ← Yao.fieldIntDiv w a b
    pure (.arith r)

/-- `/repo/co-circom/circom-mpc-vm/src/mpc/rep3.rs:212-240` -/
def rep3Mod : Rep3Val p → Rep3Val p → Rep3M R M (Rep3Val p)
  | .pub a, .pub b => liftPub (plainBin .mod a b)
  | .pub a, .arith b => do
    let divided ← Yao.fieldIntDivByShared w a b
    let m ← Rep3.mul divided b
    let id ← stateId
    pure (.arith (subPublicByShared a m id))
  | .arith a, .pub b =>
    if isPowerOfTwo b.val then do
      let r ← Yao.fieldModPower2 w a (log2 b.val)
      pure (.arith r)
    else do
      let divided ← Yao.fieldIntDivByPublic w a b
      pure (.arith (Rep3.sub a (mulPublic divided b)))
  | .arith a, .arith b => do
    let divided ← Yao.fieldIntDiv w a b
    let m ← Rep3.mul divided b
    pure (.arith (Rep3.sub a m))

/-- `/repo/co-circom/circom-mpc-vm/src/mpc/rep3.rs:242-259` -/
def rep3Sqrt [Fact p.Prime] [HasSqrt (ZMod p)] : Rep3Val p → Rep3M R M (Rep3Val p)
  | .pub a => liftPub (plainSqrt a)
  | .arith a => do
    let sqrt ← Rep3.sqrt a
    let sqrtVal ← valShare sqrt
    let isPos ← gePublic w sqrtVal (shiftedVal 0)
    let m ← Rep3.mul sqrt isPos
    pure (.arith (Rep3.sub (Rep3.add m m) sqrt))

/-- `/repo/co-circom/circom-mpc-vm/src/mpc/rep3.rs:268-287` -/
def rep3Lt : Rep3Val p → Rep3Val p → Rep3M R M (Rep3Val p)
  | .pub a, .pub b => liftPub (plainBin .lt a b)
  | .pub a, .arith b => do
    let b ← valShare b
    let r ← gePublic w b (shiftedVal a)
    pure (.arith r)
  | .arith a, .pub b => do
    let a ← valShare a
    let r ← ltPublic w a (shiftedVal b)
    pure (.arith r)
  | .arith a, .arith b => do
    let a ← valShare a
    let b ← valShare b
    let r ← Rep3.lt w a b
    pure (.arith r)

/-- `/repo/co-circom/circom-mpc-vm/src/mpc/rep3.rs:289-308` -/
def rep3Le : Rep3Val p → Rep3Val p → Rep3M R M (Rep3Val p)
  | .pub a, .pub b => liftPub (plainBin .le a b)
  | .pub a, .arith b => do
    let b ← valShare b
    let r ← gtPublic w b (shiftedVal a)
    pure (.arith r)
  | .arith a, .pub b => do
    let a ← valShare a
    let r ← lePublic w a (shiftedVal b)
    pure (.arith r)
  | .arith a, .arith b => do
    let a ← valShare a
    let b ← valShare b
    let r ← Rep3.le w a b
    pure (.arith r)

/-- `/repo/co-circom/circom-mpc-vm/src/mpc/rep3.rs:310-329` -/
def rep3Gt : Rep3Val p → Rep3Val p → Rep3M R M (Rep3Val p)
  | .pub a, .pub b => liftPub (plainBin .gt a b)
  | .pub a, .arith b => do
    let b ← valShare b
    let r ← lePublic w b (shiftedVal a)
    pure (.arith r)
  | .arith a, .pub b => do
    let a ← valShare a
    let r ← gtPublic w a (shiftedVal b)
    pure (.arith r)
  | .arith a, .arith b => do
    let a ← valShare a
    let b ← valShare b
    let r ← Rep3.gt w a b
    pure (.arith r)

/-- `/repo/co-circom/circom-mpc-vm/src/mpc/rep3.rs:331-350` -/
def rep3Ge : Rep3Val p → Rep3Val p → Rep3M R M (Rep3Val p)
  | .pub a, .pub b => liftPub (plainBin .ge a b)
  | .pub a, .arith b => do
    let b ← valShare b
    let r ← ltPublic w b (shiftedVal a)
    pure (.arith r)
  | .arith a, .pub b => do
    let a ← valShare a
    let r ← gePublic w a (shiftedVal b)
    pure (.arith r)
  | .arith a, .arith b => do
    let a ← valShare a
    let b ← valShare b
    let r ← Rep3.ge w a b
    pure (.arith r)

/-- `/repo/co-circom/circom-mpc-vm/src/mpc/rep3.rs:352-363` -/
def rep3Eq : Rep3Val p → Rep3Val p → Rep3M R M (Rep3Val p)
  | .pub a, .pub b => liftPub (plainBin .eq a b)
  | .pub b, .arith a => do
    let r ← eqPublic w a b
    pure (.arith r)
  | .arith a, .pub b => do
    let r ← eqPublic w a b
    pure (.arith r)
  | .arith a, .arith b => do
    let r ← Rep3.eq w a b
    pure (.arith r)

/-- `/repo/co-circom/circom-mpc-vm/src/mpc/rep3.rs:365-376` -/
def rep3Neq : Rep3Val p → Rep3Val p → Rep3M R M (Rep3Val p)
  | .pub a, .pub b => liftPub (plainBin .neq a b)
  | .pub b, .arith a => do
    let r ← neqPublic w a b
    pure (.arith r)
  | .arith a, .pub b => do
    let r ← neqPublic w a b
    pure (.arith r)
  | .arith a, .arith b => do
    let r ← Rep3.neq w a b
    pure (.arith r)

/-- `/repo/co-circom/circom-mpc-vm/src/mpc/rep3.rs:378-399` -/
def rep3ShiftR : Rep3Val p → Rep3Val p → Rep3M R M (Rep3Val p)
  | .pub a, .pub b => liftPub (plainBin .shiftR a b)
  | .pub a, .arith _ =>
    if a = 0 then pure (.pub 0)
    else panicWith "not yet implemented: Shared shift_right (public by shared) not implemented"
  | .arith a, .pub b => do
    let bits ← a2bSelector (w := w) a
    let shifted ← orPanic "shift is in usize range" (Bin.shiftRPublic bits b)
    let r ← b2aSelector shifted
    pure (.arith r)
  | .arith _, .arith _ => panicWith "not yet implemented: Shared shift_right not implemented"

/-- `/repo/co-circom/circom-mpc-vm/src/mpc/rep3.rs:401-419` -/
def rep3ShiftL : Rep3Val p → Rep3Val p → Rep3M R M (Rep3Val p)
  | .pub a, .pub b => liftPub (plainBin .shiftL a b)
  | .pub a, .arith b =>
    if a = 0 then pure (.pub 0)
    else do
      let b ← a2bSelector (w := w) b
      let r ← shiftLPublicByShared w a b
      pure (.arith r)
  | .arith a, .pub b => do
    let r ← orPanic "shift" (pow2Public (modBits p) a b.val)
    pure (.arith r)
  | .arith _, .arith _ => panicWith "not yet implemented: Shared shift_right not implemented"

/-- The common part of the bit operations with a public operand. -/
def bitPublic (f : Share (BitVec w) → PartyID → Share (BitVec w)) (a : Share (ZMod p)) : Rep3M R M (Rep3Val p) := do
  let a ← a2bSelector (w := w) a
  let id ← stateId
  let r ← b2aSelector (f a id)
  pure (.arith r)

/-- The end of the bit operations on two shares. -/
def bitFinish (f : Rep3M R M (Share (BitVec w))) : Rep3M R M (Rep3Val p) := do
  let binary ← f
  let r ← b2aSelector binary
  pure (.arith r)

variable {J : Type} [Codec J (Share (BitVec w))]

/-- The common part of the bit operations on two shares. -/
def bitShared (f : Share (BitVec w) → Share (BitVec w) → Rep3M R M (Share (BitVec w))) (a b : Share (ZMod p)) :
    MPC₂ PartyID (Rep3State R) M J (Rep3Val p) := do
  let (a, b) ← MPC₂.join (a2bSelector (w := w) a) (a2bSelector (w := w) b)
  MPC₂.first (bitFinish w (f a b))

/-- `/repo/co-circom/circom-mpc-vm/src/mpc/rep3.rs:477-495` -/
def rep3BitXor : Rep3Val p → Rep3Val p → MPC₂ PartyID (Rep3State R) M J (Rep3Val p)
  | .pub a, .pub b => MPC₂.first (liftPub (plainBin .bitXor a b))
  | .pub b, .arith a => MPC₂.first (bitPublic w (fun a id => Bin.xorPublic a (Uint.ofField w b) id) a)
  | .arith a, .pub b => MPC₂.first (bitPublic w (fun a id => Bin.xorPublic a (Uint.ofField w b) id) a)
  | .arith a, .arith b => bitShared w (fun a b => pure (a.bxor b)) a b

/-- `/repo/co-circom/circom-mpc-vm/src/mpc/rep3.rs:497-516` -/
def rep3BitOr : Rep3Val p → Rep3Val p → MPC₂ PartyID (Rep3State R) M J (Rep3Val p)
  | .pub a, .pub b => MPC₂.first (liftPub (plainBin .bitOr a b))
  | .pub b, .arith a => MPC₂.first (bitPublic w (fun a id => Bin.orPublic a (Uint.ofField w b) id) a)
  | .arith a, .pub b => MPC₂.first (bitPublic w (fun a id => Bin.orPublic a (Uint.ofField w b) id) a)
  | .arith a, .arith b => bitShared w (fun a b => Bin.or a b) a b

/-- `/repo/co-circom/circom-mpc-vm/src/mpc/rep3.rs:518-537` -/
def rep3BitAnd : Rep3Val p → Rep3Val p → MPC₂ PartyID (Rep3State R) M J (Rep3Val p)
  | .pub a, .pub b => MPC₂.first (liftPub (plainBin .bitAnd a b))
  | .pub b, .arith a => MPC₂.first (bitPublic w (fun a _ => a.andMask (Uint.ofField w b)) a)
  | .arith a, .pub b => MPC₂.first (bitPublic w (fun a _ => a.andMask (Uint.ofField w b)) a)
  | .arith a, .arith b => bitShared w (fun a b => Bin.and a b) a b

/-- `/repo/co-circom/circom-mpc-vm/src/mpc/rep3.rs:540-548` -/
def rep3IsZero (a : Rep3Val p) (allow : Bool) : Rep3M R M Bool :=
  if a.isArith && !allow then bail "allow_secret_inputs is false and input is shared"
  else match a with
    | .pub a => pure (decide (a = 0))
    | .arith a => Rep3.isZero w a

/-- The single bits of a binary share. -/
def splitBits (x : Share (BitVec w)) (n : Nat) : List (Share (BitVec w)) :=
  (List.range n).map fun i => (x.shr i).andMask 1#w

/-- `/repo/co-circom/circom-mpc-vm/src/mpc/rep3.rs:598-617` -/
def rep3Num2bits : Rep3Val p → Nat → Rep3M R M (List (Rep3Val p))
  | .pub a, bits => pure ((plainNum2bits a bits).map .pub)
  | .arith a, bits => do
    let aBits ← a2bSelector (w := w) a
    let r ← bitInjectMany (splitBits w aBits bits)
    pure (r.map .arith)

/-- Promotion of a VM value. -/
def toShare (id : PartyID) : Rep3Val p → Share (ZMod p)
  | .pub x => promoteToTrivialShare id x
  | .arith x => x

/-- Horner evaluation on shares. -/
def fromBitShares (l : List (Share (ZMod p))) : Share (ZMod p) :=
  l.foldl (fun acc x => Rep3.add (Rep3.add acc acc) x) Share.zeroShare

/-- `result.pop().unwrap()`, then `reverse`. -/
def popCarry (result : List (Share (ZMod p))) : Rep3M R M (List (Rep3Val p) × Rep3Val p) :=
  match result.getLast? with
  | none => panicWith "called `Option::unwrap()` on a `None` value"
  | some carry => pure (result.dropLast.reverse.map .arith, .arith carry)

/-- `/repo/co-circom/circom-mpc-vm/src/mpc/rep3.rs:619-649` -/
def rep3Addbits (a b : List (Rep3Val p)) : Rep3M R M (List (Rep3Val p) × Rep3Val p) :=
  if a.length ≠ b.length then panicWith "assertion failed: a.len() == b.len()"
  else if ¬ (a.length < modBits p - 1) then
    panicWith "assertion failed: bitlen < F::MODULUS_BIT_SIZE as usize - 1"
  else do
    let id ← stateId
    let sum := Rep3.add (fromBitShares (a.map (toShare id))) (fromBitShares (b.map (toShare id)))
    let sumBits ← a2bSelector (w := w) sum
    let result ← bitInjectMany (splitBits w sumBits (a.length + 1))
    popCarry result

/-- `/repo/co-circom/circom-mpc-vm/src/mpc/rep3.rs:651-663` -/
def rep3Log : Rep3Val p → Bool → Rep3M R M (Option (ZMod p))
  | .pub a, _ => pure (some a)
  | .arith a, leaky =>
    if leaky then do
      let v ← openShare a
      pure (some v)
    else pure none

/-- `/repo/co-circom/circom-mpc-vm/src/mpc/rep3.rs:565-570` -/
def rep3Open : Rep3Val p → Rep3M R M (ZMod p)
  | .pub a => pure a
  | .arith a => openShare a

/-- `/repo/co-circom/circom-mpc-vm/src/mpc/rep3.rs:572-577` -/
def rep3ToShare (x : Rep3Val p) : Rep3M R M (Share (ZMod p)) := do
  let id ← stateId
  pure (toShare id x)

/-- `/repo/co-circom/circom-mpc-vm/src/mpc/rep3.rs:557-563` -/
def rep3ToIndex : Rep3Val p → Rep3M R M Nat
  | .pub a => lift (toUsize a)
  | .arith _ => bail "ToIndex called on shared value!"

/-- `/repo/co-circom/circom-mpc-vm/src/mpc/rep3.rs:587-596`.  The serialised configuration is a list of flags, sent as
zeros and ones. -/
def rep3CompareConfig (config : List Bool) : Rep3M R M Unit := do
  sendNextMany (config.map (bit (p := p)))
  let recv ← recvPrevMany (α := ZMod p)
  if recv ≠ config.map bit then bail "VM Config does not match"
  else pure ()

/-- `neg`. `/repo/co-circom/circom-mpc-vm/src/mpc/rep3.rs:261-266` -/
def rep3Neg : Rep3Val p → Rep3M R M (Rep3Val p)
  | .pub a => pure (.pub (-a))
  | .arith a => pure (.arith (Rep3.neg a))

/-- The binary operations of the driver. `/repo/co-circom/circom-mpc-vm/src/mpc/rep3.rs:114-537` -/
def rep3Bin [Fact p.Prime] : BinOp → Rep3Val p → Rep3Val p → MPC₂ PartyID (Rep3State R) M J (Rep3Val p)
  | .add, a, b => MPC₂.first (rep3Add a b)
  | .sub, a, b => MPC₂.first (rep3Sub a b)
  | .mul, a, b => MPC₂.first (rep3Mul a b)
  | .div, a, b => MPC₂.first (rep3Div a b)
  | .intDiv, a, b => MPC₂.first (rep3IntDiv w a b)
  | .pow, a, b => MPC₂.first (rep3Pow a b)
  | .mod, a, b => MPC₂.first (rep3Mod w a b)
  | .lt, a, b => MPC₂.first (rep3Lt w a b)
  | .le, a, b => MPC₂.first (rep3Le w a b)
  | .gt, a, b => MPC₂.first (rep3Gt w a b)
  | .ge, a, b => MPC₂.first (rep3Ge w a b)
  | .eq, a, b => MPC₂.first (rep3Eq w a b)
  | .neq, a, b => MPC₂.first (rep3Neq w a b)
  | .shiftR, a, b => MPC₂.first (rep3ShiftR w a b)
  | .shiftL, a, b => MPC₂.first (rep3ShiftL w a b)
  | .boolOr, a, b => MPC₂.first (rep3BoolOr a b)
  | .boolAnd, a, b => MPC₂.first (rep3BoolAnd a b)
  | .bitOr, a, b => rep3BitOr w a b
  | .bitAnd, a, b => rep3BitAnd w a b
  | .bitXor, a, b => rep3BitXor w a b

/-- The Rep3 driver. `/repo/co-circom/circom-mpc-vm/src/mpc/rep3.rs:105-700` -/
def rep3 [Fact p.Prime] [HasSqrt (ZMod p)] : Driver (MPC₂ PartyID (Rep3State R) M J) (Rep3Val p) (ZMod p) (Share (ZMod p)) where
  bin := rep3Bin w
  neg a := MPC₂.first (rep3Neg a)
  sqrt a := MPC₂.first (rep3Sqrt w a)
  boolNot a := MPC₂.first (rep3BoolNot a)
  cmux c t f := MPC₂.first (rep3Cmux c t f)
  isZero a allow := MPC₂.first (rep3IsZero w a allow)
  isShared a := pure a.isArith
  toIndex a := MPC₂.first (rep3ToIndex a)
  openV a := MPC₂.first (rep3Open a)
  toShare a := MPC₂.first (rep3ToShare a)
  one := .pub 1
  zero := .pub 0
  num2bits a n := MPC₂.first (rep3Num2bits w a n)
  addbits a b := MPC₂.first (rep3Addbits w a b)
  log a leaky := MPC₂.first (rep3Log a leaky)
  compareConfig c := MPC₂.first (rep3CompareConfig (p := p) c)
  ofPub := .pub
  fail e := MPC₂.first (MPC.throw e)

end

end Verif.CircomVm
