import Verif.Yao.Protocol
import Verif.Rep3.Detail
import Verif.Rep3.Arith

/-!
# Conversions between arithmetic and binary sharings, and comparisons

Models `/repo/mpc-core/src/protocols/rep3/conversion.rs:35-461`,
`/repo/mpc-core/src/protocols/rep3/detail.rs:326-373`,
`/repo/mpc-core/src/protocols/rep3/arithmetic.rs:427-716` and
`/repo/mpc-core/src/protocols/rep3/binary.rs:171-209`.

The field is `ZMod p`; a field element is identified with its canonical representative.
-/

namespace Verif.Rep3

open PartyID
open MPC (bail panicWith)

variable {R M : Type} {w p : Nat} [Sample R (BitVec w)] [UintCodec M w]
  [Sample R (ZMod p)] [Codec M (List (ZMod p))]

/-- One component of `x01` in `a2b`, before resharing.
`/repo/mpc-core/src/protocols/rep3/conversion.rs:72-85`, `113-131` -/
def a2bOwn (id : PartyID) (x : Share (ZMod p)) (r : BitVec w) : BitVec w :=
  match id with
  | ID0 => r
  | ID1 => Uint.ofField w (x.a + x.b) ^^^ r
  | ID2 => r

/-- The share `x2` in `a2b`. `/repo/mpc-core/src/protocols/rep3/conversion.rs:72-85`, `113-131` -/
def a2bOther (id : PartyID) (x : Share (ZMod p)) : Share (BitVec w) :=
  match id with
  | ID0 => ⟨0#w, Uint.ofField w x.b⟩
  | ID1 => Share.bzero
  | ID2 => ⟨Uint.ofField w x.a, 0#w⟩

/-- `/repo/mpc-core/src/protocols/rep3/conversion.rs:60-94` -/
def a2b (x : Share (ZMod p)) : Rep3M R M (Share (BitVec w)) := do
  let r ← Bin.maskBits (modBits p)
  let id ← stateId
  let x01a := a2bOwn id x r
  let x2 := a2bOther id x
  let x01b ← reshare x01a
  Bin.lowDepthBinaryAddModP p ⟨x01a, x01b⟩ x2 (modBits p)

/-- `/repo/mpc-core/src/protocols/rep3/conversion.rs:97-149` -/
def a2bMany (x : List (Share (ZMod p))) : Rep3M R M (List (Share (BitVec w))) := do
  let rVec ← x.mapM fun (_ : Share (ZMod p)) => Bin.maskBits (modBits p)
  let id ← stateId
  let x2 := x.map (a2bOther id)
  let x01a := List.zipWith (a2bOwn id) x rVec
  let x01b ← reshareMany x01a
  let x01 := List.zipWith Share.mk x01a x01b
  Bin.lowDepthBinaryAddModPMany p x01 x2 (modBits p)

/-- `F::from_uint_unchecked` -/
def fromUint (u : BitVec w) : Rep3M R M (ZMod p) :=
  match Uint.toFieldUnchecked p u with
  | some x => pure x
  | none => panicWith "from_uint_unchecked"

/-- The random components of the result of `b2a` and this party's component of `y`.
`/repo/mpc-core/src/protocols/rep3/conversion.rs:169-194`, `240-272` -/
def b2aKeys (id : PartyID) (r : BitVec w) : Rep3M R M (BitVec w × Share (ZMod p)) :=
  match id with
  | ID0 => do
    let k3 ← bitcomp2Fes (p := p)
    pure (r, ⟨0, -(k3.1 + k3.2.1 + k3.2.2)⟩)
  | ID1 => do
    let k2 ← bitcomp1Fes (p := p)
    pure (r, ⟨-(k2.1 + k2.2.1 + k2.2.2), 0⟩)
  | ID2 => do
    let k2 ← bitcomp1Fes (p := p)
    let k3 ← bitcomp2Fes (p := p)
    let k2c := k2.1 + k2.2.1 + k2.2.2
    let k3c := k3.1 + k3.2.1 + k3.2.2
    pure (Uint.ofField w (k2c + k3c) ^^^ r, ⟨-k3c, -k2c⟩)

/-- Opening of `z` towards parties 0 and 1.
`/repo/mpc-core/src/protocols/rep3/conversion.rs:207-219` -/
def b2aOpen (id : PartyID) (z : Share (BitVec w)) (res : Share (ZMod p)) :
    Rep3M R M (Share (ZMod p)) :=
  match id with
  | ID0 => do
    let rcv ← reshare z.b
    let v ← fromUint (z.a ^^^ z.b ^^^ rcv)
    pure { res with a := v }
  | ID1 => do
    let rcv ← recvPrev
    let v ← fromUint (z.a ^^^ z.b ^^^ rcv)
    pure { res with b := v }
  | ID2 => do
    sendNext z.b
    pure res

/-- `/repo/mpc-core/src/protocols/rep3/conversion.rs:155-221` -/
def b2a (x : Share (BitVec w)) : Rep3M R M (Share (ZMod p)) := do
  let r ← Bin.maskBits (modBits p)
  let id ← stateId
  let (ya, res) ← b2aKeys id r
  let yb ← reshare ya
  let z ← Bin.lowDepthBinaryAddModP p x ⟨ya, yb⟩ (modBits p)
  b2aOpen id z res

/-- The combination of `res`, `z` and the received components (`izip!` stops at the shortest, the
remaining elements of `res` stay as they are).
`/repo/mpc-core/src/protocols/rep3/conversion.rs:295-297`, `301-303` -/
def b2aFill (id : PartyID) : List (Share (ZMod p)) → List (Share (BitVec w)) → List (BitVec w) →
    Rep3M R M (List (Share (ZMod p)))
  | res :: rs, z :: zs, c :: cs => do
    let v ← fromUint (z.a ^^^ z.b ^^^ c)
    let rest ← b2aFill id rs zs cs
    match id with
    | ID0 => pure ({ res with a := v } :: rest)
    | _ => pure ({ res with b := v } :: rest)
  | rs, _, _ => pure rs

/-- `/repo/mpc-core/src/protocols/rep3/conversion.rs:289-307` -/
def b2aOpenMany (id : PartyID) (z : List (Share (BitVec w))) (res : List (Share (ZMod p))) :
    Rep3M R M (List (Share (ZMod p))) :=
  match id with
  | ID0 => do
    sendNextMany (z.map Share.b)
    let rcv ← recvPrevMany
    b2aFill ID0 res z rcv
  | ID1 => do
    let rcv ← recvPrevMany
    b2aFill ID1 res z rcv
  | ID2 => do
    sendNextMany (z.map Share.b)
    pure res

/-- `/repo/mpc-core/src/protocols/rep3/conversion.rs:224-309` -/
def b2aMany (x : List (Share (BitVec w))) : Rep3M R M (List (Share (ZMod p))) := do
  let rVec ← x.mapM fun (_ : Share (BitVec w)) => Bin.maskBits (modBits p)
  let id ← stateId
  let yres ← rVec.mapM fun (r : BitVec w) => b2aKeys (p := p) id r
  let ya := yres.map Prod.fst
  let res := yres.map Prod.snd
  sendNextMany ya
  let yb ← recvPrevMany
  let y := List.zipWith Share.mk ya yb
  let z ← Bin.lowDepthBinaryAddModPMany p x y (modBits p)
  b2aOpenMany id z res

/-- `if b { F::one() } else { F::zero() }` -/
def bitVal (b : Bool) : ZMod p := if b then 1 else 0

omit [Sample R (BitVec w)] [UintCodec M w] in
/-- `/repo/mpc-core/src/protocols/rep3/conversion.rs:323-369` -/
def bitInjectFromBits (bits : Bool × Bool) : Rep3M R M (Share (ZMod p)) := do
  let id ← stateId
  match id with
  | ID0 => do
    let x0 ← maskElem
    let y : ZMod p := bitVal bits.2
    let z0 := y * x0
    let resA := x0 + y - z0 - z0
    sendNext resA
    let resB ← recvPrev
    pure ⟨resA, resB⟩
  | ID1 => do
    let x1 ← maskElem
    let resA : ZMod p := if bits.1 ^^ bits.2 then x1 + 1 else x1
    sendNext resA
    let resB ← recvPrev
    pure ⟨resA, resB⟩
  | ID2 => do
    let resB ← recvPrev
    let x2 ← maskElem
    let y : ZMod p := bitVal bits.1
    let z2 := y * (resB + x2)
    let resA := x2 - z2 - z2
    sendNext resA
    pure ⟨resA, resB⟩

omit [Sample R (BitVec w)] [UintCodec M w] in
/-- `/repo/mpc-core/src/protocols/rep3/conversion.rs:372-381` -/
def bitInject (x : Share (BitVec w)) : Rep3M R M (Share (ZMod p)) :=
  if ¬ Uint.isBit x.a then panicWith "assertion failed: x.a.bit_len() <= 1"
  else if ¬ Uint.isBit x.b then panicWith "assertion failed: x.b.bit_len() <= 1"
  else bitInjectFromBits (x.a.getLsbD 0, x.b.getLsbD 0)

omit [Sample R (BitVec w)] [UintCodec M w] in
/-- `/repo/mpc-core/src/protocols/rep3/conversion.rs:384-461` -/
def bitInjectMany (x : List (Share (BitVec w))) : Rep3M R M (List (Share (ZMod p))) :=
  if ¬ x.all (fun s => Uint.isBit s.a) then panicWith "assertion failed: bit_len"
  else if ¬ x.all (fun s => Uint.isBit s.b) then panicWith "assertion failed: bit_len"
  else do
    let id ← stateId
    match id with
    | ID0 => do
      let resA ← x.mapM fun (el : Share (BitVec w)) => do
        let x0 ← maskElem
        let y : ZMod p := bitVal (el.b.getLsbD 0)
        let z0 := y * x0
        pure (x0 + y - z0 - z0)
      sendNextMany resA
      let resB ← recvPrevMany
      if resB.length ≠ x.length then bail "Received wrong number of elements"
      else pure (List.zipWith Share.mk resA resB)
    | ID1 => do
      let resA ← x.mapM fun (el : Share (BitVec w)) => do
        let x1 ← maskElem
        pure (if el.a.getLsbD 0 ^^ el.b.getLsbD 0 then x1 + 1 else x1 : ZMod p)
      sendNextMany resA
      let resB ← recvPrevMany
      if resB.length ≠ x.length then bail "Received wrong number of elements"
      else pure (List.zipWith Share.mk resA resB)
    | ID2 => do
      let resB ← recvPrevMany
      if resB.length ≠ x.length then bail "Received wrong number of elements"
      else do
        let resA ← (x.zip resB).mapM fun (el : Share (BitVec w) × ZMod p) => do
          let x2 ← maskElem
          let y : ZMod p := bitVal (el.1.a.getLsbD 0)
          let z2 := y * (el.2 + x2)
          pure (x2 - z2 - z2)
        sendNextMany resA
        pure (List.zipWith Share.mk resA resB)

/-- `state.a2b_type` -/
def stateA2BType : Rep3M R M A2BType := MPC.modifyGet fun s => (s.a2bType, s)

variable [Yao.YaoRng R] [Yao.YaoNet M]

/-- `/repo/mpc-core/src/protocols/rep3/conversion.rs:36-45` -/
def a2bSelector (x : Share (ZMod p)) : Rep3M R M (Share (BitVec w)) := do
  match ← stateA2BType with
  | .direct => a2b x
  | .yao => Yao.a2y2b x

/-- `/repo/mpc-core/src/protocols/rep3/conversion.rs:48-57` -/
def b2aSelector (x : Share (BitVec w)) : Rep3M R M (Share (ZMod p)) := do
  match ← stateA2BType with
  | .direct => b2a x
  | .yao => Yao.b2y2a x

/-! ### Comparisons -/

variable (w)

/-- `/repo/mpc-core/src/protocols/rep3/detail.rs:327-338` -/
def unsignedGe (x y : Share (ZMod p)) : Rep3M R M (Share (BitVec w)) := do
  let aBits ← a2bSelector x
  let bBits ← a2bSelector y
  let diff ← Bin.lowDepthBinarySub aBits bBits (modBits p)
  pure ((diff.shr (modBits p)).andMask 1#w)

/-- `/repo/mpc-core/src/protocols/rep3/detail.rs:341-351` -/
def unsignedGeConstLhs (x : ZMod p) (y : Share (ZMod p)) : Rep3M R M (Share (BitVec w)) := do
  let bBits ← a2bSelector y
  let diff ← Bin.lowDepthBinarySubFromConst (modBits p) (Uint.ofField w x) bBits
  pure ((diff.shr (modBits p)).andMask 1#w)

/-- `/repo/mpc-core/src/protocols/rep3/detail.rs:354-373` -/
def unsignedGeConstRhs (x : Share (ZMod p)) (y : ZMod p) : Rep3M R M (Share (BitVec w)) := do
  if y = 0 then do
    let id ← stateId
    pure (Bin.promote id 1#w)
  else do
    let aBits ← a2bSelector x
    let diff ← Bin.lowDepthBinarySubByConst (modBits p) aBits (Uint.ofField w y)
    pure ((diff.shr (modBits p)).andMask 1#w)

/-- `/repo/mpc-core/src/protocols/rep3/arithmetic.rs:518-525` -/
def geBit (lhs rhs : Share (ZMod p)) : Rep3M R M (Share (BitVec w)) := unsignedGe w lhs rhs

/-- `/repo/mpc-core/src/protocols/rep3/arithmetic.rs:507-515` -/
def ge (lhs rhs : Share (ZMod p)) : Rep3M R M (Share (ZMod p)) := do
  let res ← geBit w lhs rhs
  bitInject res

omit [Yao.YaoRng R] [Yao.YaoNet M] in
/-- `1 - x`, as `sub_public_by_shared(F::one(), x, state.id)`. -/
def oneMinus (x : Share (ZMod p)) : Rep3M R M (Share (ZMod p)) := do
  let id ← stateId
  pure (subPublicByShared 1 x id)

/-- `/repo/mpc-core/src/protocols/rep3/arithmetic.rs:427-436` -/
def lt (lhs rhs : Share (ZMod p)) : Rep3M R M (Share (ZMod p)) := do
  let tmp ← ge w lhs rhs
  oneMinus tmp

/-- `/repo/mpc-core/src/protocols/rep3/arithmetic.rs:451-459` -/
def le (lhs rhs : Share (ZMod p)) : Rep3M R M (Share (ZMod p)) := ge w rhs lhs

/-- `/repo/mpc-core/src/protocols/rep3/arithmetic.rs:483-492` -/
def gt (lhs rhs : Share (ZMod p)) : Rep3M R M (Share (ZMod p)) := do
  let tmp ← le w lhs rhs
  oneMinus tmp

/-- `/repo/mpc-core/src/protocols/rep3/arithmetic.rs:539-546` -/
def gePublicBit (lhs : Share (ZMod p)) (rhs : ZMod p) : Rep3M R M (Share (BitVec w)) :=
  unsignedGeConstRhs w lhs rhs

/-- `/repo/mpc-core/src/protocols/rep3/arithmetic.rs:528-536` -/
def gePublic (lhs : Share (ZMod p)) (rhs : ZMod p) : Rep3M R M (Share (ZMod p)) := do
  let res ← gePublicBit w lhs rhs
  bitInject res

/-- `/repo/mpc-core/src/protocols/rep3/arithmetic.rs:439-448` -/
def ltPublic (lhs : Share (ZMod p)) (rhs : ZMod p) : Rep3M R M (Share (ZMod p)) := do
  let tmp ← gePublic w lhs rhs
  oneMinus tmp

/-- `/repo/mpc-core/src/protocols/rep3/arithmetic.rs:473-480` -/
def lePublicBit (lhs : Share (ZMod p)) (rhs : ZMod p) : Rep3M R M (Share (BitVec w)) :=
  unsignedGeConstLhs w rhs lhs

/-- `/repo/mpc-core/src/protocols/rep3/arithmetic.rs:462-470` -/
def lePublic (lhs : Share (ZMod p)) (rhs : ZMod p) : Rep3M R M (Share (ZMod p)) := do
  let res ← lePublicBit w lhs rhs
  bitInject res

/-- `/repo/mpc-core/src/protocols/rep3/arithmetic.rs:495-504` -/
def gtPublic (lhs : Share (ZMod p)) (rhs : ZMod p) : Rep3M R M (Share (ZMod p)) := do
  let tmp ← lePublic w lhs rhs
  oneMinus tmp

/-- `/repo/mpc-core/src/protocols/rep3/arithmetic.rs:649-659` -/
def eqBit (a b : Share (ZMod p)) : Rep3M R M (Share (BitVec w)) := do
  let diff := sub a b
  let bits ← a2bSelector diff
  Bin.isZero (modBits p) bits

/-- `/repo/mpc-core/src/protocols/rep3/arithmetic.rs:556-564` -/
def eq (a b : Share (ZMod p)) : Rep3M R M (Share (ZMod p)) := do
  let z ← eqBit w a b
  bitInject z

omit [Yao.YaoRng R] [Yao.YaoNet M] in
/-- `/repo/mpc-core/src/protocols/rep3/arithmetic.rs:662-682`; always the direct conversion. -/
def eqBitMany (a b : List (Share (ZMod p))) : Rep3M R M (List (Share (BitVec w))) :=
  if a.length ≠ b.length then bail "During execution of eq_bit_many: Invalid number of elements received."
  else do
    let diff := List.zipWith sub a b
    let bits ← a2bMany diff
    Bin.isZeroMany (modBits p) bits

omit [Yao.YaoRng R] [Yao.YaoNet M] in
/-- `/repo/mpc-core/src/protocols/rep3/arithmetic.rs:568-583` -/
def eqMany (a b : List (Share (ZMod p))) : Rep3M R M (List (Share (ZMod p))) :=
  if a.length ≠ b.length then bail "During execution of eq_many: Invalid number of elements received."
  else do
    let z ← eqBitMany w a b
    bitInjectMany z

/-- `/repo/mpc-core/src/protocols/rep3/arithmetic.rs:616-624` -/
def eqBitPublic (shared : Share (ZMod p)) (pub : ZMod p) : Rep3M R M (Share (BitVec w)) := do
  let id ← stateId
  eqBit w shared (promoteToTrivialShare id pub)

/-- `/repo/mpc-core/src/protocols/rep3/arithmetic.rs:586-594` -/
def eqPublic (shared : Share (ZMod p)) (pub : ZMod p) : Rep3M R M (Share (ZMod p)) := do
  let z ← eqBitPublic w shared pub
  bitInject z

omit [Yao.YaoRng R] [Yao.YaoNet M] in
/-- `/repo/mpc-core/src/protocols/rep3/arithmetic.rs:628-646` -/
def eqBitPublicMany (shared : List (Share (ZMod p))) (pub : List (ZMod p)) :
    Rep3M R M (List (Share (BitVec w))) :=
  if shared.length ≠ pub.length then
    bail "During execution of eq_bit_public_many: Invalid number of elements received."
  else do
    let id ← stateId
    eqBitMany w shared (pub.map fun v => promoteToTrivialShare id v)

omit [Yao.YaoRng R] [Yao.YaoNet M] in
/-- `/repo/mpc-core/src/protocols/rep3/arithmetic.rs:598-613` -/
def eqPublicMany (shared : List (Share (ZMod p))) (pub : List (ZMod p)) :
    Rep3M R M (List (Share (ZMod p))) :=
  if shared.length ≠ pub.length then
    bail "During execution of eq_public_many: Invalid number of elements received."
  else do
    let z ← eqBitPublicMany w shared pub
    bitInjectMany z

/-- `/repo/mpc-core/src/protocols/rep3/arithmetic.rs:685-693` -/
def neq (a b : Share (ZMod p)) : Rep3M R M (Share (ZMod p)) := do
  let e ← eq w a b
  oneMinus e

/-- `/repo/mpc-core/src/protocols/rep3/arithmetic.rs:696-704` -/
def neqPublic (shared : Share (ZMod p)) (pub : ZMod p) : Rep3M R M (Share (ZMod p)) := do
  let id ← stateId
  neq w shared (promoteToTrivialShare id pub)

/-- `/repo/mpc-core/src/protocols/rep3/arithmetic.rs:707-716` -/
def isZero (a : Share (ZMod p)) : Rep3M R M Bool := do
  let res ← eqBit w Share.zeroShare a
  let x ← Bin.openShare res
  pure (decide (x = 1#w))

/-- The eight bits `b_i` as arithmetic shares.
`/repo/mpc-core/src/protocols/rep3/binary.rs:180-187` -/
def shiftBits (shared : Share (BitVec w)) : Rep3M R M (List (Share (ZMod p))) :=
  (List.range 8).mapM fun (i : Nat) =>
    b2aSelector (⟨(shared.a >>> i) &&& 1#w, (shared.b >>> i) &&& 1#w⟩ : Share (BitVec w))

/-- `v_i = 2^2^i * <b_i> + 1 - <b_i>`. `/repo/mpc-core/src/protocols/rep3/binary.rs:189-200` -/
def shiftFactor (id : PartyID) (i : Nat) (b : Share (ZMod p)) : Share (ZMod p) :=
  sub (addPublic (mulPublic b ((2 : ZMod p) ^ (2 ^ i))) 1 id) b

/-- `/repo/mpc-core/src/protocols/rep3/binary.rs:171-209` -/
def shiftLPublicByShared (pub : ZMod p) (shared : Share (BitVec w)) : Rep3M R M (Share (ZMod p)) := do
  let bits ← shiftBits w shared
  let id ← stateId
  let vs := List.zipWith (shiftFactor id) (List.range bits.length) bits
  match vs.getLast? with
  | none => panicWith "called `Option::unwrap()` on a `None` value"
  | some v => do
    let v ← vs.dropLast.foldlM (fun (v v_i : Share (ZMod p)) => mul v v_i) v
    pure (mulPublic v pub)

end Verif.Rep3
