import Verif.Rep3.Share
import Mathlib.Data.ZMod.Basic

/-!
# Binary (XOR) shares

Models `/repo/mpc-core/src/protocols/rep3/binary.rs`,
`/repo/mpc-core/src/protocols/rep3/binary/{ops,types}.rs` and the parts of
`/repo/mpc-core/src/uint/{mod,field_uint,ruint_wrapper}.rs` they use.

`F::Uint` is `BitVec w`, with `w = F::Uint::BITS`.  The width contract `w ≥ MODULUS_BIT_SIZE + 2`
(`/repo/mpc-core/src/uint/field_uint.rs:9-14`, checked at compile time there) is a hypothesis of the
theorems that need it.
-/

namespace Verif

open PartyID
open MPC (bail panicWith)

/-- Messages that carry uints: single values, pairs, vectors and pairs of vectors. -/
class UintCodec (M : Type) (w : Nat) where
  one : Codec M (List (BitVec w))
  pair : Codec M (List (BitVec w × BitVec w))
  vec : Codec M (List (List (BitVec w)))
  vecs : Codec M (List (List (BitVec w) × List (BitVec w)))

attribute [instance_reducible, instance] UintCodec.one UintCodec.pair UintCodec.vec UintCodec.vecs

namespace Uint

/-- `UintBackend::mask`, `/repo/mpc-core/src/uint/mod.rs:73-78`.  The code panics for `k > w`; within the
width contract no call has such an argument (the largest one is `MODULUS_BIT_SIZE + 1`), and the
model does not represent the panic. -/
def mask (w k : Nat) : BitVec w := BitVec.ofNat w (2 ^ k - 1)

/-- `set_bit(index, true)`, `/repo/mpc-core/src/uint/mod.rs:71-72`. -/
def setBit {w : Nat} (x : BitVec w) (i : Nat) : BitVec w := x ||| BitVec.twoPow w i

/-- `bit_len() <= 1`, `/repo/mpc-core/src/uint/mod.rs:66-68`. -/
def isBit {w : Nat} (x : BitVec w) : Bool := x.toNat < 2

/-- `FieldUint::to_uint`, `/repo/mpc-core/src/uint/field_uint.rs:63-65`, `91-93`. -/
def ofField {p : Nat} (w : Nat) (x : ZMod p) : BitVec w := BitVec.ofNat w x.val

/-- `FieldUint::from_uint_unchecked`, `/repo/mpc-core/src/uint/field_uint.rs:27-33`, `71-73`, `99-108`;
`none` is the panic.  Release builds of fields whose uint has more limbs than the field truncate
values that do not fit the limbs of the field; here they panic like other values `≥ p`. -/
def toFieldUnchecked {w : Nat} (p : Nat) (u : BitVec w) : Option (ZMod p) :=
  if u.toNat < p then some (u.toNat : ZMod p) else none

/-- `FieldUint::modulus_uint`, `/repo/mpc-core/src/uint/field_uint.rs:75-77`. -/
def modulus (w p : Nat) : BitVec w := BitVec.ofNat w p

end Uint

/-- `F::MODULUS_BIT_SIZE`: the number of bits of the modulus. -/
def modBits (p : Nat) : Nat := p.size

/-- `random_uint(bitlen)` = `random_bits` on both generators,
`/repo/mpc-core/src/protocols/rep3/rngs.rs:190-194`, `/repo/mpc-core/src/uint/ruint_wrapper.rs:415-422`. -/
def Rep3Rand.randomUint {R : Type} (w : Nat) [Sample R (BitVec w)] (bitlen : Nat) (g : Rep3Rand R) :
    (BitVec w × BitVec w) × Rep3Rand R :=
  let ((a, b), g) := g.randomPair (α := BitVec w)
  ((a &&& Uint.mask w bitlen, b &&& Uint.mask w bitlen), g)

namespace Share

variable {w : Nat}

/-- `/repo/mpc-core/src/protocols/rep3/binary/ops.rs:7-39` -/
def bxor (x y : Share (BitVec w)) : Share (BitVec w) := ⟨x.a ^^^ y.a, x.b ^^^ y.b⟩

/-- Local part of an AND. `/repo/mpc-core/src/protocols/rep3/binary/ops.rs:41-55` -/
def localAnd (x y : Share (BitVec w)) : BitVec w :=
  (x.a &&& y.a) ^^^ (x.a &&& y.b) ^^^ (x.b &&& y.a)

/-- `/repo/mpc-core/src/protocols/rep3/binary/ops.rs:57-82` -/
def shl (x : Share (BitVec w)) (n : Nat) : Share (BitVec w) := ⟨x.a <<< n, x.b <<< n⟩

/-- `/repo/mpc-core/src/protocols/rep3/binary/ops.rs:84-103` -/
def shr (x : Share (BitVec w)) (n : Nat) : Share (BitVec w) := ⟨x.a >>> n, x.b >>> n⟩

/-- `/repo/mpc-core/src/protocols/rep3/binary/types.rs:58-70` -/
def xorMask (x : Share (BitVec w)) (m : BitVec w) : Share (BitVec w) := ⟨x.a ^^^ m, x.b ^^^ m⟩

/-- `/repo/mpc-core/src/protocols/rep3/binary/types.rs:75-87` -/
def andMask (x : Share (BitVec w)) (m : BitVec w) : Share (BitVec w) := ⟨x.a &&& m, x.b &&& m⟩

/-- `/repo/mpc-core/src/protocols/rep3/binary/types.rs:33-39` -/
def bzero : Share (BitVec w) := ⟨0#w, 0#w⟩

/-- `x.a.set_bit(i, true); x.b.set_bit(i, true)`,
`/repo/mpc-core/src/protocols/rep3/binary.rs:318-319`, `354-355` -/
def setBit (x : Share (BitVec w)) (i : Nat) : Share (BitVec w) := ⟨Uint.setBit x.a i, Uint.setBit x.b i⟩

end Share

namespace Rep3.Bin

variable {R M : Type} {w : Nat}

/-- `/repo/mpc-core/src/protocols/rep3/binary.rs:21-23` -/
def xor (a b : Share (BitVec w)) : Share (BitVec w) := a.bxor b

/-- `/repo/mpc-core/src/protocols/rep3/binary.rs:26-38` -/
def xorPublic (shared : Share (BitVec w)) (pub : BitVec w) (id : PartyID) : Share (BitVec w) :=
  match id with
  | ID0 => { shared with a := shared.a ^^^ pub }
  | ID1 => { shared with b := shared.b ^^^ pub }
  | ID2 => shared

/-- `/repo/mpc-core/src/protocols/rep3/binary.rs:41-59` -/
def xorPublicVec (shared : List (Share (BitVec w))) (pub : List (BitVec w)) (id : PartyID) :
    List (Share (BitVec w)) :=
  List.zipWith (fun s p => xorPublic s p id) shared pub

/-- `/repo/mpc-core/src/protocols/rep3/binary.rs:120-122` -/
def andWithPublic (shared : Share (BitVec w)) (pub : BitVec w) : Share (BitVec w) :=
  shared.andMask pub

/-- `/repo/mpc-core/src/protocols/rep3/binary.rs:74-82` -/
def orPublic (shared : Share (BitVec w)) (pub : BitVec w) (id : PartyID) : Share (BitVec w) :=
  let tmp := shared.andMask pub
  let x := xorPublic shared pub id
  x.bxor tmp

/-- `/repo/mpc-core/src/protocols/rep3/binary.rs:131-137`; `none` is the panic.  `usize` has 64 bits. -/
def shiftRPublic {p : Nat} (shared : Share (BitVec w)) (pub : ZMod p) : Option (Share (BitVec w)) :=
  if pub.val < 2 ^ 64 then some (shared.shr pub.val) else none

/-- `/repo/mpc-core/src/protocols/rep3/binary.rs:144-154`; `none` is the panic. -/
def shiftLPublic {p : Nat} (shared : Share (BitVec w)) (pub : ZMod p) : Option (Share (BitVec w)) :=
  if pub.val < 2 ^ 64 then
    if pub.val < modBits p then some (shared.shl pub.val) else none
  else none

/-- `/repo/mpc-core/src/protocols/rep3/binary.rs:218-227` -/
def promote (id : PartyID) (v : BitVec w) : Share (BitVec w) :=
  match id with
  | ID0 => ⟨v, 0#w⟩
  | ID1 => ⟨0#w, v⟩
  | ID2 => Share.bzero

variable [Sample R (BitVec w)] [UintCodec M w]

/-- Draw from both generators and XOR, as at
`/repo/mpc-core/src/protocols/rep3/binary.rs:91-92`, `107-109` and
`/repo/mpc-core/src/protocols/rep3/detail.rs:245-249`, `281-285`. -/
def maskBits (bitlen : Nat) : Rep3M R M (BitVec w) := do
  let (m, mb) ← withRand (Rep3Rand.randomUint w bitlen)
  pure (m ^^^ mb)

/-- `/repo/mpc-core/src/protocols/rep3/binary.rs:85-96` -/
def and (a b : Share (BitVec w)) : Rep3M R M (Share (BitVec w)) := do
  let m ← maskBits w
  let localA := a.localAnd b ^^^ m
  let localB ← reshare localA
  pure ⟨localA, localB⟩

/-- `/repo/mpc-core/src/protocols/rep3/binary.rs:99-117`; the vector is sent as one value. -/
def andVec (a b : List (Share (BitVec w))) : Rep3M R M (List (Share (BitVec w))) := do
  let localA ← (a.zip b).mapM fun (ab : Share (BitVec w) × Share (BitVec w)) => do
    let m ← maskBits w
    pure (ab.1.localAnd ab.2 ^^^ m)
  let localB ← reshare localA
  pure (List.zipWith Share.mk localA localB)

/-- `/repo/mpc-core/src/protocols/rep3/binary.rs:62-71` -/
def or (a b : Share (BitVec w)) : Rep3M R M (Share (BitVec w)) := do
  let x := a.bxor b
  let d ← and a b
  pure (x.bxor d)

/-- `/repo/mpc-core/src/protocols/rep3/binary.rs:212-215`; also
`/repo/mpc-core/src/protocols/rep3/arithmetic.rs:255-258` (`open_bit`). -/
def openShare (a : Share (BitVec w)) : Rep3M R M (BitVec w) := do
  let c ← reshare a.b
  pure (a.a ^^^ a.b ^^^ c)

/-- `/repo/mpc-core/src/protocols/rep3/binary.rs:230-241` -/
def cmux (c xt xf : Share (BitVec w)) : Rep3M R M (Share (BitVec w)) := do
  let x := xf.bxor xt
  let d ← and c x
  pure (d.bxor xf)

/-- `/repo/mpc-core/src/protocols/rep3/binary.rs:244-259`; failed assertions panic. -/
def cmuxMany (c xt xf : List (Share (BitVec w))) : Rep3M R M (List (Share (BitVec w))) := do
  if c.length ≠ xt.length then panicWith "assert_eq"
  else if c.length ≠ xf.length then panicWith "assert_eq"
  else do
    let x := List.zipWith Share.bxor xf xt
    let d ← andVec c x
    pure (List.zipWith Share.bxor d xf)

/-- One level of the OR tree: `num` pairs are combined, a leftover element is appended.
`/repo/mpc-core/src/protocols/rep3/binary.rs:277-289` -/
def orLevel (inputs : List (Share (BitVec w))) : Rep3M R M (List (Share (BitVec w))) := do
  let num := inputs.length / 2
  let aVec := inputs.take num
  let tmp := inputs.drop num
  let bVec := tmp.take num
  let leftover := tmp.drop num
  let res ← (aVec.zip bVec).mapM fun (ab : Share (BitVec w) × Share (BitVec w)) => or ab.1 ab.2
  pure (res ++ leftover)

/-- The loop of `/repo/mpc-core/src/protocols/rep3/binary.rs:274-296`.  `num` in the code is always the
length of `inputs`; `fuel` bounds the number of levels (the length of the input suffices, the
list shrinks in every level). -/
def orLoop : Nat → List (Share (BitVec w)) → Rep3M R M (Share (BitVec w))
  | 0, _ => panicWith "unreachable: or_tree ran out of levels"
  | fuel + 1, inputs =>
    if inputs.length > 1 then do
      let inputs ← orLevel inputs
      orLoop fuel inputs
    else
      match inputs with
      | [] => panicWith "index out of bounds"
      | x :: _ => pure x

/-- `/repo/mpc-core/src/protocols/rep3/binary.rs:266-297`; panics on an empty input. -/
def orTree (inputs : List (Share (BitVec w))) : Rep3M R M (Share (BitVec w)) :=
  orLoop (inputs.length + 1) inputs

/-- The loop of `/repo/mpc-core/src/protocols/rep3/binary.rs:313-326`. -/
def isZeroLoop (len : Nat) (x : Share (BitVec w)) : Rep3M R M (Share (BitVec w)) :=
  if len > 1 then do
    let (len', x) := if len % 2 = 1 then (len + 1, x.setBit len) else (len, x)
    let half := len' / 2
    let m := Uint.mask w half
    let y := x.shr half
    let x ← and (x.andMask m) (y.andMask m)
    isZeroLoop ((len + 1) / 2) x
  else pure x
termination_by len
decreasing_by omega

/-- `/repo/mpc-core/src/protocols/rep3/binary.rs:300-329`; `bits` is `F::MODULUS_BIT_SIZE`. -/
def isZero (bits : Nat) (x : Share (BitVec w)) : Rep3M R M (Share (BitVec w)) := do
  let x := x.xorMask (Uint.mask w bits)
  let x ← isZeroLoop bits x
  pure (x.andMask 1#w)

/-- The loop of `/repo/mpc-core/src/protocols/rep3/binary.rs:348-369`. -/
def isZeroLoopMany (len : Nat) (x : List (Share (BitVec w))) : Rep3M R M (List (Share (BitVec w))) :=
  if len > 1 then do
    let (len', x) :=
      if len % 2 = 1 then (len + 1, x.map fun s => s.setBit len) else (len, x)
    let half := len' / 2
    let m := Uint.mask w half
    let y := x.map fun s => (s.shr half).andMask m
    let x := x.map fun s => s.andMask m
    let x ← andVec x y
    isZeroLoopMany ((len + 1) / 2) x
  else pure x
termination_by len
decreasing_by omega

/-- `/repo/mpc-core/src/protocols/rep3/binary.rs:332-375` -/
def isZeroMany (bits : Nat) (x : List (Share (BitVec w))) : Rep3M R M (List (Share (BitVec w))) := do
  let m := Uint.mask w bits
  let x := x.map fun s => (s.xorMask m).andMask m
  let x ← isZeroLoopMany bits x
  pure (x.map fun s => s.andMask 1#w)

end Rep3.Bin

end Verif
