import Verif.Rep3.Conversion
import Verif.Yao.Blueprint
import Mathlib.Data.BitVec

/-!
# Shares over the integers modulo `2^k`

Models `/repo/mpc-core/src/protocols/rep3_ring.rs`,
`/repo/mpc-core/src/protocols/rep3_ring/{arithmetic,binary,detail,conversion,casts}.rs` and the parts of
`/repo/mpc-core/src/protocols/rep3_ring/ring/{ring_impl,int_ring,bit}.rs` and
`/repo/mpc-core/src/protocols/rep3_ring/{arithmetic,binary}/{ops,types}.rs` they use.  The conversions through
garbled circuits are in `Verif.Yao.Blueprint`.

`RingElement<T>` is `BitVec k` with `k = T::K`; all operations of `RingElement` wrap
(`/repo/mpc-core/src/protocols/rep3_ring/ring/ring_impl.rs`).  `Bit` is `BitVec 1`: its addition and
subtraction are XOR and its multiplication is AND (`/repo/mpc-core/src/protocols/rep3_ring/ring/bit.rs:121-173`,
`295-320`), which is arithmetic modulo two.  A `Rep3RingShare<T>` is a `Share (BitVec k)`; the same type
serves arithmetic and binary sharings, as in the code.  The operators on shares
(`/repo/mpc-core/src/protocols/rep3_ring/{arithmetic,binary}/ops.rs`) act on components like the ones for
fields and uints, whose definitions are used here.
-/

namespace Verif

/-- `!x` on both components. `/repo/mpc-core/src/protocols/rep3_ring/binary/ops.rs:181-201` -/
def Share.bnot {k : Nat} (x : Share (BitVec k)) : Share (BitVec k) := ⟨~~~x.a, ~~~x.b⟩

/-- `Rep3RingShare::get_bit`, `RingElement::get_bit`,
`/repo/mpc-core/src/protocols/rep3_ring/arithmetic/types.rs:79-84`,
`/repo/mpc-core/src/protocols/rep3_ring/ring/ring_impl.rs:64-66` -/
def Share.getBit {k : Nat} (x : Share (BitVec k)) (i : Nat) : Share (BitVec 1) :=
  ⟨BitVec.ofBool (x.a.getLsbD i), BitVec.ofBool (x.b.getLsbD i)⟩

/-- `as_()` between ring types, `cast_to_uint` and `cast_from_uint`, on both components: zero extension
or truncation. `/repo/mpc-core/src/protocols/rep3_ring/ring/int_ring.rs:66-70`, `115-124`, `148-154` -/
def Share.castTo {k : Nat} (l : Nat) (x : Share (BitVec k)) : Share (BitVec l) :=
  ⟨x.a.setWidth l, x.b.setWidth l⟩

namespace Rep3.Ring

open PartyID
open MPC (bail panicWith)

variable {R M : Type} {k : Nat}

/-! ### Sharing and combining -/

section Sharing

variable [Sample R (BitVec k)]

/-- `/repo/mpc-core/src/protocols/rep3_ring.rs:23-38` -/
def shareRingElement (val : BitVec k) (rng : R) : (PartyID → Share (BitVec k)) × R :=
  let (a, rng) := Sample.sample rng
  let (b, rng) := Sample.sample rng
  let c := val - a - b
  (three ⟨a, c⟩ ⟨b, a⟩ ⟨c, b⟩, rng)

/-- `/repo/mpc-core/src/protocols/rep3_ring.rs:41-58` -/
def shareRingElements : List (BitVec k) → R → (PartyID → List (Share (BitVec k))) × R :=
  shareLoop shareRingElement

/-- `/repo/mpc-core/src/protocols/rep3_ring.rs:61-75` -/
def shareRingElementBinary (val : BitVec k) (rng : R) : (PartyID → Share (BitVec k)) × R :=
  let (a, rng) := Sample.sample rng
  let (b, rng) := Sample.sample rng
  let c := val ^^^ a ^^^ b
  (three ⟨a, c⟩ ⟨b, a⟩ ⟨c, b⟩, rng)

/-- `/repo/mpc-core/src/protocols/rep3_ring.rs:78-95` -/
def shareRingElementsBinary : List (BitVec k) → R → (PartyID → List (Share (BitVec k))) × R :=
  shareLoop shareRingElementBinary

omit [Sample R (BitVec k)]

/-- `/repo/mpc-core/src/protocols/rep3_ring.rs:98-104` -/
def combineRingElement (s1 s2 s3 : Share (BitVec k)) : BitVec k := s1.a + s2.a + s3.a

/-- `/repo/mpc-core/src/protocols/rep3_ring.rs:109-120`; `none` is the failed assertion. -/
def combineRingElements (s1 s2 s3 : List (Share (BitVec k))) : Option (List (BitVec k)) :=
  if s1.length = s2.length ∧ s2.length = s3.length then
    some (List.zipWith (fun x (yz : Share (BitVec k) × Share (BitVec k)) => x.a + yz.1.a + yz.2.a) s1
      (s2.zip s3))
  else none

/-- `/repo/mpc-core/src/protocols/rep3_ring.rs:123-129` -/
def combineRingElementBinary (s1 s2 s3 : Share (BitVec k)) : BitVec k := s1.a ^^^ s2.a ^^^ s3.a

end Sharing

/-! ### Arithmetic

The bodies of these functions are those of the functions for fields, over another ring. -/

section Arith

/-- `/repo/mpc-core/src/protocols/rep3_ring/arithmetic.rs:25-33` (also `add_assign`) -/
abbrev add (a b : Share (BitVec k)) : Share (BitVec k) := Rep3.add a b

/-- `/repo/mpc-core/src/protocols/rep3_ring/arithmetic.rs:35-61` (also `add_assign_public`) -/
abbrev addPublic (shared : Share (BitVec k)) (pub : BitVec k) (id : PartyID) : Share (BitVec k) :=
  Rep3.addPublic shared pub id

/-- `/repo/mpc-core/src/protocols/rep3_ring/arithmetic.rs:63-68` -/
abbrev addVecAssign (lhs rhs : List (Share (BitVec k))) : List (Share (BitVec k)) :=
  Rep3.addVecAssign lhs rhs

/-- `/repo/mpc-core/src/protocols/rep3_ring/arithmetic.rs:70-78` (also `sub_assign`) -/
abbrev sub (a b : Share (BitVec k)) : Share (BitVec k) := Rep3.sub a b

/-- `/repo/mpc-core/src/protocols/rep3_ring/arithmetic.rs:80-85` -/
abbrev subVecAssign (lhs rhs : List (Share (BitVec k))) : List (Share (BitVec k)) :=
  Rep3.subVecAssign lhs rhs

/-- `/repo/mpc-core/src/protocols/rep3_ring/arithmetic.rs:87-93` -/
abbrev subSharedByPublic (shared : Share (BitVec k)) (pub : BitVec k) (id : PartyID) :
    Share (BitVec k) := Rep3.subSharedByPublic shared pub id

/-- `/repo/mpc-core/src/protocols/rep3_ring/arithmetic.rs:96-102` -/
abbrev subPublicByShared (pub : BitVec k) (shared : Share (BitVec k)) (id : PartyID) :
    Share (BitVec k) := Rep3.subPublicByShared pub shared id

/-- `/repo/mpc-core/src/protocols/rep3_ring/arithmetic.rs:123-130` (also `mul_assign_public`) -/
abbrev mulPublic (shared : Share (BitVec k)) (pub : BitVec k) : Share (BitVec k) :=
  Rep3.mulPublic shared pub

/-- `/repo/mpc-core/src/protocols/rep3_ring/arithmetic.rs:197-199` -/
abbrev neg (a : Share (BitVec k)) : Share (BitVec k) := Rep3.neg a

/-- `/repo/mpc-core/src/protocols/rep3_ring/arithmetic.rs:249-255` -/
abbrev addMulPublic (a b : Share (BitVec k)) (c : BitVec k) : Share (BitVec k) :=
  Rep3.addMulPublic a b c

/-- `/repo/mpc-core/src/protocols/rep3_ring/arithmetic.rs:273-282` -/
abbrev promoteToTrivialShare (id : PartyID) (v : BitVec k) : Share (BitVec k) :=
  Rep3.promoteToTrivialShare id v

/-- `/repo/mpc-core/src/protocols/rep3_ring/arithmetic.rs:202-205` -/
abbrev openShare [UintCodec M k] (a : Share (BitVec k)) : Rep3M R M (BitVec k) := Rep3.openShare a

/-- `/repo/mpc-core/src/protocols/rep3_ring/arithmetic.rs:217-230` -/
abbrev openVec [UintCodec M k] (a : List (Share (BitVec k))) : Rep3M R M (List (BitVec k)) :=
  Rep3.openVec a

/-- `/repo/mpc-core/src/protocols/rep3_ring/arithmetic.rs:160-171` -/
abbrev reshareVec [UintCodec M k] (localA : List (BitVec k)) : Rep3M R M (List (Share (BitVec k))) :=
  Rep3.reshareVec localA

variable [Sample R (BitVec k)] [UintCodec M k]

/-- `/repo/mpc-core/src/protocols/rep3_ring/arithmetic.rs:105-120` -/
abbrev mul (a b : Share (BitVec k)) : Rep3M R M (Share (BitVec k)) := Rep3.mul a b

/-- `/repo/mpc-core/src/protocols/rep3_ring/arithmetic.rs:176-194` -/
abbrev mulVec (lhs rhs : List (Share (BitVec k))) : Rep3M R M (List (Share (BitVec k))) :=
  Rep3.mulVec lhs rhs

/-- `/repo/mpc-core/src/protocols/rep3_ring/arithmetic.rs:233-246` -/
abbrev cmux (cond truthy falsy : Share (BitVec k)) : Rep3M R M (Share (BitVec k)) :=
  Rep3.cmux cond truthy falsy

/-- `/repo/mpc-core/src/protocols/rep3_ring/arithmetic.rs:258-270` -/
abbrev addMul (a b c : Share (BitVec k)) : Rep3M R M (Share (BitVec k)) := Rep3.addMul a b c

/-- `/repo/mpc-core/src/protocols/rep3_ring/arithmetic.rs:285-297` -/
abbrev mulOpen (a b : Share (BitVec k)) : Rep3M R M (BitVec k) := Rep3.mulOpen a b

/-- `/repo/mpc-core/src/protocols/rep3_ring/arithmetic.rs:300-315` -/
abbrev mulOpenVec (a b : List (Share (BitVec k))) : Rep3M R M (List (BitVec k)) := Rep3.mulOpenVec a b

omit [UintCodec M k] in
/-- `/repo/mpc-core/src/protocols/rep3_ring/arithmetic.rs:318-324` -/
abbrev rand : Rep3M R M (Share (BitVec k)) := Rep3.rand

/-- The loop of `/repo/mpc-core/src/protocols/rep3_ring/arithmetic.rs:339-346`; `pub` is the value of the
public ring element. -/
def powLoop (pub : Nat) (res shared : Share (BitVec k)) : Rep3M R M (Share (BitVec k)) :=
  if pub = 0 then pure res
  else do
    let pub' := if pub % 2 = 1 then pub - 1 else pub
    let res ← if pub % 2 = 1 then mul res shared else pure res
    let shared ← mul shared shared
    powLoop (pub' / 2) res shared
termination_by pub
decreasing_by grind

/-- `/repo/mpc-core/src/protocols/rep3_ring/arithmetic.rs:327-348` -/
def powPublic (shared : Share (BitVec k)) (pub : BitVec k) : Rep3M R M (Share (BitVec k)) := do
  let id ← stateId
  powLoop pub.toNat (promoteToTrivialShare id 1#k) shared

omit [Sample R (BitVec k)] [UintCodec M k] in
/-- `/repo/mpc-core/src/protocols/rep3_ring/arithmetic.rs:540-561`; `none` is the panic.  `usize` has 64 bits. -/
def pow2Public (shared : Share (BitVec k)) (pub : BitVec k) : Option (Share (BitVec k)) :=
  if pub = 0#k then some shared
  else if pub.toNat ≥ 2 ^ 64 then none
  else if pub.toNat ≥ k then none
  else some (mulPublic shared (1#k <<< pub.toNat))

/-- `/repo/mpc-core/src/protocols/rep3_ring/arithmetic.rs:564-580` -/
def arithmeticXor (x y : Share (BitVec k)) : Rep3M R M (Share (BitVec k)) := do
  let m ← maskElem
  let d := x.localMul y + m
  let d := d <<< 1
  let e := x.a + y.a
  let resA := e - d
  let resB ← reshare resA
  pure ⟨resA, resB⟩

/-- `/repo/mpc-core/src/protocols/rep3_ring/arithmetic.rs:583-610` -/
def arithmeticXorMany (x y : List (Share (BitVec k))) : Rep3M R M (List (Share (BitVec k))) := do
  let a ← (x.zip y).mapM fun (xy : Share (BitVec k) × Share (BitVec k)) => do
    let m ← maskElem
    let d := xy.1.localMul xy.2 + m
    let d := d <<< 1
    let e := xy.1.a + xy.2.a
    pure (e - d)
  let b ← reshareMany a
  pure (List.zipWith Share.mk a b)

end Arith

/-! ### Binary operations -/

section Binary

/-- `/repo/mpc-core/src/protocols/rep3_ring/binary.rs:18-20` -/
abbrev xor (a b : Share (BitVec k)) : Share (BitVec k) := Bin.xor a b

/-- `/repo/mpc-core/src/protocols/rep3_ring/binary.rs:23-35` -/
abbrev xorPublic (shared : Share (BitVec k)) (pub : BitVec k) (id : PartyID) : Share (BitVec k) :=
  Bin.xorPublic shared pub id

/-- `/repo/mpc-core/src/protocols/rep3_ring/binary.rs:53-61` -/
abbrev orPublic (shared : Share (BitVec k)) (pub : BitVec k) (id : PartyID) : Share (BitVec k) :=
  Bin.orPublic shared pub id

/-- `/repo/mpc-core/src/protocols/rep3_ring/binary.rs:104-109` -/
abbrev andWithPublic (shared : Share (BitVec k)) (pub : BitVec k) : Share (BitVec k) :=
  Bin.andWithPublic shared pub

/-- `/repo/mpc-core/src/protocols/rep3_ring/binary.rs:152-161` -/
abbrev promote (id : PartyID) (v : BitVec k) : Share (BitVec k) := Bin.promote id v

/-- `/repo/mpc-core/src/protocols/rep3_ring/binary.rs:116-126`; `none` is the panic. -/
def shiftRPublic (shared : Share (BitVec k)) (pub : BitVec k) : Option (Share (BitVec k)) :=
  if pub = 0#k then some shared
  else if pub.toNat ≥ 2 ^ 64 then none
  else some (shared.shr pub.toNat)

/-- `/repo/mpc-core/src/protocols/rep3_ring/binary.rs:133-143`; `none` is the panic. -/
def shiftLPublic (shared : Share (BitVec k)) (pub : BitVec k) : Option (Share (BitVec k)) :=
  if pub = 0#k then some shared
  else if pub.toNat ≥ 2 ^ 64 then none
  else some (shared.shl pub.toNat)

/-- `/repo/mpc-core/src/protocols/rep3_ring/binary.rs:146-149`,
`/repo/mpc-core/src/protocols/rep3_ring/arithmetic.rs:208-214` (`open_bit`) -/
def openBits [UintCodec M k] (a : Share (BitVec k)) : Rep3M R M (BitVec k) := do
  let c ← reshare a.b
  pure (a.a ^^^ a.b ^^^ c)

variable [Sample R (BitVec k)] [UintCodec M k]

omit [UintCodec M k] in
/-- `random_elements` from both generators, XORed, as at
`/repo/mpc-core/src/protocols/rep3_ring/binary.rs:73-74`. -/
def maskBits : Rep3M R M (BitVec k) := do
  let (m, mb) ← withRand (Rep3Rand.randomPair (α := BitVec k))
  pure (m ^^^ mb)

/-- `/repo/mpc-core/src/protocols/rep3_ring/binary.rs:64-78` -/
def and (a b : Share (BitVec k)) : Rep3M R M (Share (BitVec k)) := do
  let m ← maskBits
  let localA := a.localAnd b ^^^ m
  let localB ← reshare localA
  pure ⟨localA, localB⟩

/-- `/repo/mpc-core/src/protocols/rep3_ring/binary.rs:81-101`; the vector is sent as one value. -/
def andVec (a b : List (Share (BitVec k))) : Rep3M R M (List (Share (BitVec k))) := do
  let localA ← (a.zip b).mapM fun (ab : Share (BitVec k) × Share (BitVec k)) => do
    let m ← maskBits
    pure (ab.1.localAnd ab.2 ^^^ m)
  let localB ← reshare localA
  pure (List.zipWith Share.mk localA localB)

/-- `/repo/mpc-core/src/protocols/rep3_ring/binary.rs:38-50` -/
def or (a b : Share (BitVec k)) : Rep3M R M (Share (BitVec k)) := do
  let x := a.bxor b
  let d ← and a b
  pure (x.bxor d)

/-- `/repo/mpc-core/src/protocols/rep3_ring/binary.rs:164-178` -/
def cmuxBits (c xt xf : Share (BitVec k)) : Rep3M R M (Share (BitVec k)) := do
  let x := xf.bxor xt
  let d ← and c x
  pure (d.bxor xf)

/-- One level of the OR tree. `/repo/mpc-core/src/protocols/rep3_ring/binary.rs:198-214` -/
def orLevel (inputs : List (Share (BitVec k))) : Rep3M R M (List (Share (BitVec k))) := do
  let num := inputs.length / 2
  let aVec := inputs.take num
  let tmp := inputs.drop num
  let bVec := tmp.take num
  let leftover := tmp.drop num
  let res ← (aVec.zip bVec).mapM fun (ab : Share (BitVec k) × Share (BitVec k)) => or ab.1 ab.2
  pure (res ++ leftover)

/-- The loop of `/repo/mpc-core/src/protocols/rep3_ring/binary.rs:196-215`; see `Bin.orLoop` for `fuel`. -/
def orLoop : Nat → List (Share (BitVec k)) → Rep3M R M (Share (BitVec k))
  | 0, _ => panicWith "unreachable: or_tree ran out of levels"
  | fuel + 1, inputs =>
    if inputs.length > 1 then do
      let inputs ← orLevel inputs
      orLoop fuel inputs
    else
      match inputs with
      | [] => panicWith "index out of bounds"
      | x :: _ => pure x

/-- `/repo/mpc-core/src/protocols/rep3_ring/binary.rs:185-219`; panics on an empty input. -/
def orTree (inputs : List (Share (BitVec k))) : Rep3M R M (Share (BitVec k)) :=
  orLoop (inputs.length + 1) inputs

/-- The loop of `/repo/mpc-core/src/protocols/rep3_ring/binary.rs:237-243`. -/
def isZeroLoop (len : Nat) (x : Share (BitVec k)) : Rep3M R M (Share (BitVec k)) :=
  if len > 1 then do
    let half := len / 2
    let m := (1#k <<< half) - 1#k
    let y := x.shr half
    let x ← and (x.andMask m) (y.andMask m)
    isZeroLoop half x
  else pure x
termination_by len
decreasing_by omega

/-- `/repo/mpc-core/src/protocols/rep3_ring/binary.rs:222-249` -/
def isZeroBits (x : Share (BitVec k)) : Rep3M R M (Share (BitVec 1)) := do
  let x ← isZeroLoop k x.bnot
  pure ⟨BitVec.ofBool (decide (x.a &&& 1#k = 1#k)), BitVec.ofBool (decide (x.b &&& 1#k = 1#k))⟩

end Binary

/-! ### Adders -/

section Detail

variable [Sample R (BitVec k)] [UintCodec M k]

/-- `/repo/mpc-core/src/protocols/rep3_ring/detail.rs:173-203` -/
def andTwice (a b1 b2 : Share (BitVec k)) : Rep3M R M (Share (BitVec k) × Share (BitVec k)) := do
  let mask1 ← maskBits
  let mask2 ← maskBits
  let localA1 := b1.localAnd a ^^^ mask1
  let localA2 := a.localAnd b2 ^^^ mask2
  let (localB1, localB2) ← reshare (localA1, localA2)
  pure (⟨localA1, localB1⟩, ⟨localA2, localB2⟩)

/-- `/repo/mpc-core/src/protocols/rep3_ring/detail.rs:137-171`; operands are `(a, b1, b2)`.  The final
`izip!` over all four vectors stops at the shortest; all have the same length when the parties run the
same code. -/
def andTwiceMany (abs : List (Share (BitVec k) × Share (BitVec k) × Share (BitVec k))) :
    Rep3M R M (List (Share (BitVec k)) × List (Share (BitVec k))) := do
  let locals ← abs.mapM fun (x : Share (BitVec k) × Share (BitVec k) × Share (BitVec k)) => do
    let mask1 ← maskBits
    let mask2 ← maskBits
    pure (x.2.1.localAnd x.1 ^^^ mask1, x.1.localAnd x.2.2 ^^^ mask2)
  let a1 := locals.map Prod.fst
  let a2 := locals.map Prod.snd
  let (b1, b2) ← reshare (a1, a2)
  pure (List.zipWith Share.mk a1 b1, List.zipWith Share.mk a2 b2)

/-- One round. `/repo/mpc-core/src/protocols/rep3_ring/detail.rs:123-132` -/
def koggeStoneRound (pg : Share (BitVec k) × Share (BitVec k)) (i : Nat) :
    Rep3M R M (Share (BitVec k) × Share (BitVec k)) := do
  let shift := 2 ^ i
  let p_ := pg.1.shl shift
  let g_ := pg.2.shl shift
  let (r1, r2) ← andTwice pg.1 g_ p_
  pure (r2, pg.2.bxor r1)

/-- `/repo/mpc-core/src/protocols/rep3_ring/detail.rs:110-134`; `ilog2` is `Nat.log2`.  `ilog2` panics
for zero; no ring has width zero. -/
def koggeStoneLoop (p g : Share (BitVec k)) : Rep3M R M (Share (BitVec k)) := do
  let (_, g) ← (List.range (Nat.log2 k)).foldlM koggeStoneRound (p, g)
  pure g

/-- `/repo/mpc-core/src/protocols/rep3_ring/detail.rs:42-55` -/
def koggeStoneInner (p g : Share (BitVec k)) : Rep3M R M (Share (BitVec k)) := do
  let g ← koggeStoneLoop p g
  pure ((g.shl 1).bxor p)

/-- One round on vectors. `/repo/mpc-core/src/protocols/rep3_ring/detail.rs:72-85` -/
def koggeStoneRoundMany (pg : List (Share (BitVec k)) × List (Share (BitVec k))) (i : Nat) :
    Rep3M R M (List (Share (BitVec k)) × List (Share (BitVec k))) := do
  let shift := 2 ^ i
  let p_ := pg.1.map fun p => p.shl shift
  let g_ := pg.2.map fun g => g.shl shift
  let (r1, r2) ← andTwiceMany (pg.1.zip (g_.zip p_))
  pure (List.zipWith (fun _ (r : Share (BitVec k)) => r) pg.1 r2,
    List.zipWith (fun (g r : Share (BitVec k)) => g.bxor r) pg.2 r1)

/-- `/repo/mpc-core/src/protocols/rep3_ring/detail.rs:57-92` -/
def koggeStoneInnerMany (p g : List (Share (BitVec k))) : Rep3M R M (List (Share (BitVec k))) := do
  let s := p
  let (_, g) ← (List.range (Nat.log2 k)).foldlM koggeStoneRoundMany (p, g)
  pure (List.zipWith (fun (g s : Share (BitVec k)) => (g.shl 1).bxor s) g s)

/-- `/repo/mpc-core/src/protocols/rep3_ring/detail.rs:94-108` -/
def koggeStoneInnerWithCarry (p g : Share (BitVec k)) :
    Rep3M R M (Share (BitVec k) × Share (BitVec 1)) := do
  let g ← koggeStoneLoop p g
  let c := g.getBit (k - 1)
  pure ((g.shl 1).bxor p, c)

/-- `/repo/mpc-core/src/protocols/rep3_ring/detail.rs:27-40` -/
def lowDepthBinaryAdd (x1 x2 : Share (BitVec k)) : Rep3M R M (Share (BitVec k)) := do
  let p := x1.bxor x2
  let g ← and x1 x2
  koggeStoneInner p g

/-- `/repo/mpc-core/src/protocols/rep3_ring/detail.rs:11-25` -/
def lowDepthBinaryAddMany (x1 x2 : List (Share (BitVec k))) : Rep3M R M (List (Share (BitVec k))) := do
  let p := List.zipWith Share.bxor x1 x2
  let g ← andVec x1 x2
  koggeStoneInnerMany p g

/-- `/repo/mpc-core/src/protocols/rep3_ring/detail.rs:206-230` -/
def subWithCarry (x1 x2 : Share (BitVec k)) : Rep3M R M (Share (BitVec k) × Share (BitVec 1)) := do
  let x2 := x2.bnot
  let p := x1.bxor x2
  let g ← and x1 x2
  let g := g.bxor (p.andMask 1#k)
  let (res, c) ← koggeStoneInnerWithCarry p g
  let id ← stateId
  pure (xorPublic res 1#k id, c)

/-- `/repo/mpc-core/src/protocols/rep3_ring/detail.rs:233-255` -/
def subByConstWithCarry (x1 : Share (BitVec k)) (x2 : BitVec k) :
    Rep3M R M (Share (BitVec k) × Share (BitVec 1)) := do
  let x2_ := ~~~x2 + 1#k
  let id ← stateId
  let p := xorPublic x1 x2_ id
  let g := x1.andMask x2_
  let (res, c) ← koggeStoneInnerWithCarry p g
  pure (res, if x2 = 0#k then c.bnot else c)

/-- `/repo/mpc-core/src/protocols/rep3_ring/detail.rs:258-282` -/
def subFromConstWithCarry (x1 : BitVec k) (x2 : Share (BitVec k)) :
    Rep3M R M (Share (BitVec k) × Share (BitVec 1)) := do
  let x2 := x2.bnot
  let id ← stateId
  let p := xorPublic x2 x1 id
  let g := x2.andMask x1
  let g := g.bxor (p.andMask 1#k)
  let (res, c) ← koggeStoneInnerWithCarry p g
  pure (xorPublic res 1#k id, c)

end Detail

/-! ### Conversions -/

section Conversion

variable [Sample R (BitVec k)] [UintCodec M k]

/-- One component of `x01` in `a2b`, before resharing.
`/repo/mpc-core/src/protocols/rep3_ring/conversion.rs:72-85`, `112-132` -/
def a2bOwn (id : PartyID) (x : Share (BitVec k)) (r : BitVec k) : BitVec k :=
  match id with
  | ID0 => r
  | ID1 => (x.a + x.b) ^^^ r
  | ID2 => r

/-- The share `x2` in `a2b`. `/repo/mpc-core/src/protocols/rep3_ring/conversion.rs:72-85`, `112-132` -/
def a2bOther (id : PartyID) (x : Share (BitVec k)) : Share (BitVec k) :=
  match id with
  | ID0 => ⟨0#k, x.b⟩
  | ID1 => Share.bzero
  | ID2 => ⟨x.a, 0#k⟩

/-- `/repo/mpc-core/src/protocols/rep3_ring/conversion.rs:58-92` -/
def a2b (x : Share (BitVec k)) : Rep3M R M (Share (BitVec k)) := do
  let r ← maskBits
  let id ← stateId
  let x01a := a2bOwn id x r
  let x2 := a2bOther id x
  let x01b ← reshare x01a
  lowDepthBinaryAdd ⟨x01a, x01b⟩ x2

/-- `/repo/mpc-core/src/protocols/rep3_ring/conversion.rs:95-140` -/
def a2bMany (x : List (Share (BitVec k))) : Rep3M R M (List (Share (BitVec k))) := do
  let rVec ← x.mapM fun (_ : Share (BitVec k)) => maskBits (k := k)
  let id ← stateId
  let x2 := x.map (a2bOther id)
  let x01a := List.zipWith (a2bOwn id) x rVec
  let x01b ← reshareMany x01a
  let x01 := List.zipWith Share.mk x01a x01b
  lowDepthBinaryAddMany x01 x2

omit [UintCodec M k] in
/-- `state.rngs.bitcomp1.random_elements_3keys()` -/
def bitcomp1Elems : Rep3M R M (BitVec k × BitVec k × BitVec k) :=
  withRngs? fun g => (g.bitcomp1.random3).map fun (x, c) => (x, { g with bitcomp1 := c })

omit [UintCodec M k] in
/-- `state.rngs.bitcomp2.random_elements_3keys()` -/
def bitcomp2Elems : Rep3M R M (BitVec k × BitVec k × BitVec k) :=
  withRngs? fun g => (g.bitcomp2.random3).map fun (x, c) => (x, { g with bitcomp2 := c })

omit [UintCodec M k] in
/-- The random components of the result of `b2a` and this party's component of `y`.
`/repo/mpc-core/src/protocols/rep3_ring/conversion.rs:157-193`, `235-275` -/
def b2aKeys (id : PartyID) (r : BitVec k) : Rep3M R M (BitVec k × Share (BitVec k)) :=
  match id with
  | ID0 => do
    let k3 ← bitcomp2Elems (k := k)
    pure (r, ⟨0#k, -(k3.1 + k3.2.1 + k3.2.2)⟩)
  | ID1 => do
    let k2 ← bitcomp1Elems (k := k)
    pure (r, ⟨-(k2.1 + k2.2.1 + k2.2.2), 0#k⟩)
  | ID2 => do
    let k2 ← bitcomp1Elems (k := k)
    let k3 ← bitcomp2Elems (k := k)
    let k2c := k2.1 + k2.2.1 + k2.2.2
    let k3c := k3.1 + k3.2.1 + k3.2.2
    pure ((k2c + k3c) ^^^ r, ⟨-k3c, -k2c⟩)

omit [Sample R (BitVec k)] in
/-- Opening of `z` towards parties 0 and 1.
`/repo/mpc-core/src/protocols/rep3_ring/conversion.rs:201-214` -/
def b2aOpen (id : PartyID) (z : Share (BitVec k)) (res : Share (BitVec k)) :
    Rep3M R M (Share (BitVec k)) :=
  match id with
  | ID0 => do
    sendNext z.b
    let rcv ← recvPrev
    pure { res with a := z.a ^^^ z.b ^^^ rcv }
  | ID1 => do
    let rcv ← recvPrev
    pure { res with b := z.a ^^^ z.b ^^^ rcv }
  | ID2 => do
    sendNext z.b
    pure res

/-- `/repo/mpc-core/src/protocols/rep3_ring/conversion.rs:143-216` -/
def b2a (x : Share (BitVec k)) : Rep3M R M (Share (BitVec k)) := do
  let r ← maskBits
  let id ← stateId
  let (ya, res) ← b2aKeys id r
  let yb ← reshare ya
  let z ← lowDepthBinaryAdd x ⟨ya, yb⟩
  b2aOpen id z res

/-- The combination of `res`, `z` and the received components (`izip!` stops at the shortest, the
remaining elements of `res` stay as they are).
`/repo/mpc-core/src/protocols/rep3_ring/conversion.rs:294-296`, `300-302` -/
def b2aFill (id : PartyID) : List (Share (BitVec k)) → List (Share (BitVec k)) → List (BitVec k) →
    List (Share (BitVec k))
  | res :: rs, z :: zs, c :: cs =>
    (match id with
      | ID0 => { res with a := z.a ^^^ z.b ^^^ c }
      | _ => { res with b := z.a ^^^ z.b ^^^ c }) :: b2aFill id rs zs cs
  | rs, _, _ => rs

omit [Sample R (BitVec k)] in
/-- `/repo/mpc-core/src/protocols/rep3_ring/conversion.rs:288-308` -/
def b2aOpenMany (id : PartyID) (z : List (Share (BitVec k))) (res : List (Share (BitVec k))) :
    Rep3M R M (List (Share (BitVec k))) :=
  match id with
  | ID0 => do
    sendNextMany (z.map Share.b)
    let rcv ← recvPrevMany
    pure (b2aFill ID0 res z rcv)
  | ID1 => do
    let rcv ← recvPrevMany
    pure (b2aFill ID1 res z rcv)
  | ID2 => do
    sendNextMany (z.map Share.b)
    pure res

/-- `/repo/mpc-core/src/protocols/rep3_ring/conversion.rs:219-310` -/
def b2aMany (x : List (Share (BitVec k))) : Rep3M R M (List (Share (BitVec k))) := do
  let rVec ← x.mapM fun (_ : Share (BitVec k)) => maskBits (k := k)
  let id ← stateId
  let yres ← rVec.mapM fun (r : BitVec k) => b2aKeys id r
  let ya := yres.map Prod.fst
  let res := yres.map Prod.snd
  sendNextMany ya
  let yb ← recvPrevMany
  let y := List.zipWith Share.mk ya yb
  let z ← lowDepthBinaryAddMany x y
  b2aOpenMany id z res

/-- The three ways a party turns its mask and its bits into its component of an injected bit, with
`y` already an element of the target ring.
`/repo/mpc-core/src/protocols/rep3_ring/conversion.rs:329-333`, `387-391`, `460-464`, `515-519`, `588-597` -/
def injectA {F : Type} [CommRing F] (y x0 : F) : F :=
  let z0 := y * x0
  x0 + y - z0 - z0

/-- `/repo/mpc-core/src/protocols/rep3_ring/conversion.rs:354-358`, `426-430`, `485-489`, `554-558`, `636-644` -/
def injectC {F : Type} [CommRing F] (y resB x2 : F) : F :=
  let z2 := y * (resB + x2)
  x2 - z2 - z2

/-- The protocol common to `bit_inject` and `bit_inject_from_bit`: `ya` is used by party 2, `yab` by
party 1 and `yb` by party 0.
`/repo/mpc-core/src/protocols/rep3_ring/conversion.rs:327-364`, `458-495` -/
def injectOne {F : Type} [CommRing F] [Sample R F] [Codec M (List F)] (ya yab yb : F) :
    Rep3M R M (Share F) := do
  let id ← stateId
  match id with
  | ID0 => do
    let x0 ← maskElem
    let resA := injectA yb x0
    sendNext resA
    let resB ← recvPrev
    pure ⟨resA, resB⟩
  | ID1 => do
    let x1 ← maskElem
    let resA := x1 + yab
    sendNext resA
    let resB ← recvPrev
    pure ⟨resA, resB⟩
  | ID2 => do
    let resB ← recvPrev
    let x2 ← maskElem
    let resA := injectC ya resB x2
    sendNext resA
    pure ⟨resA, resB⟩

/-- The protocol common to the vector forms; an element `(ya, yab, yb)` per position.
`/repo/mpc-core/src/protocols/rep3_ring/conversion.rs:384-443`, `512-571`, `585-657` -/
def injectMany {F : Type} [CommRing F] [Sample R F] [Codec M (List F)] (x : List (F × F × F)) :
    Rep3M R M (List (Share F)) := do
  let id ← stateId
  match id with
  | ID0 => do
    let resA ← x.mapM fun (el : F × F × F) => do
      let x0 ← maskElem
      pure (injectA el.2.2 x0)
    sendNextMany resA
    let resB ← recvPrevMany
    if resB.length ≠ x.length then bail "Received wrong number of elements"
    else pure (List.zipWith Share.mk resA resB)
  | ID1 => do
    let resA ← x.mapM fun (el : F × F × F) => do
      let x1 ← maskElem
      pure (x1 + el.2.1)
    sendNextMany resA
    let resB ← recvPrevMany
    if resB.length ≠ x.length then bail "Received wrong number of elements"
    else pure (List.zipWith Share.mk resA resB)
  | ID2 => do
    let resB ← recvPrevMany
    if resB.length ≠ x.length then bail "Received wrong number of elements"
    else do
      let resA ← (x.zip resB).mapM fun (el : (F × F × F) × F) => do
        let x2 ← maskElem
        pure (injectC el.1.1 el.2 x2)
      sendNextMany resA
      pure (List.zipWith Share.mk resA resB)

/-- `/repo/mpc-core/src/protocols/rep3_ring/conversion.rs:313-365` -/
def bitInject (x : Share (BitVec k)) : Rep3M R M (Share (BitVec k)) :=
  if ¬ Uint.isBit x.a then panicWith "assertion failed: x.a.bits() <= 1"
  else if ¬ Uint.isBit x.b then panicWith "assertion failed: x.b.bits() <= 1"
  else injectOne x.a (x.a ^^^ x.b) x.b

/-- `/repo/mpc-core/src/protocols/rep3_ring/conversion.rs:368-444` -/
def bitInjectMany (x : List (Share (BitVec k))) : Rep3M R M (List (Share (BitVec k))) :=
  if ¬ x.all (fun s => Uint.isBit s.a) then panicWith "assertion failed: bits"
  else if ¬ x.all (fun s => Uint.isBit s.b) then panicWith "assertion failed: bits"
  else injectMany (x.map fun s => (s.a, s.a ^^^ s.b, s.b))

/-- `T::from(bit.convert())`, or one or zero of the field. -/
def bitTo {F : Type} [Zero F] [One F] (b : BitVec 1) : F := if b = 1#1 then 1 else 0

/-- `/repo/mpc-core/src/protocols/rep3_ring/conversion.rs:447-496` -/
def bitInjectFromBit (x : Share (BitVec 1)) : Rep3M R M (Share (BitVec k)) :=
  injectOne (bitTo x.a) (bitTo (x.a ^^^ x.b)) (bitTo x.b)

/-- `/repo/mpc-core/src/protocols/rep3_ring/conversion.rs:499-572` -/
def bitInjectFromBitsMany (x : List (Share (BitVec 1))) : Rep3M R M (List (Share (BitVec k))) :=
  injectMany (x.map fun s => (bitTo s.a, bitTo (s.a ^^^ s.b), bitTo s.b))

omit [Sample R (BitVec k)] [UintCodec M k] in
/-- `/repo/mpc-core/src/protocols/rep3_ring/conversion.rs:575-658`; `x1 + one` or `x1` there is
`x1 + yab` here. -/
def bitInjectFromBitsToFieldMany {p : Nat} [Sample R (ZMod p)] [Codec M (List (ZMod p))]
    (x : List (Share (BitVec 1))) : Rep3M R M (List (Share (ZMod p))) :=
  injectMany (x.map fun s => (bitTo s.a, bitTo (s.a ^^^ s.b), bitTo s.b))

variable [Yao.YaoRng R] [Yao.YaoNet M]

/-- `/repo/mpc-core/src/protocols/rep3_ring/conversion.rs:28-40` -/
def a2bSelector (x : Share (BitVec k)) : Rep3M R M (Share (BitVec k)) := do
  match ← stateA2BType with
  | .direct => a2b x
  | .yao => Yao.a2y2bRing x

/-- `/repo/mpc-core/src/protocols/rep3_ring/conversion.rs:43-55` -/
def b2aSelector (x : Share (BitVec k)) : Rep3M R M (Share (BitVec k)) := do
  match ← stateA2BType with
  | .direct => b2a x
  | .yao => Yao.b2y2aRing x

end Conversion

/-! ### Comparisons -/

section Compare

variable [Sample R (BitVec k)] [UintCodec M k] [Yao.YaoRng R] [Yao.YaoNet M]

/-- `/repo/mpc-core/src/protocols/rep3_ring/detail.rs:285-298` -/
def unsignedGe (x y : Share (BitVec k)) : Rep3M R M (Share (BitVec 1)) := do
  let aBits ← a2bSelector x
  let bBits ← a2bSelector y
  let (_, r) ← subWithCarry aBits bBits
  pure r

/-- `/repo/mpc-core/src/protocols/rep3_ring/detail.rs:301-313` -/
def unsignedGeConstLhs (x : BitVec k) (y : Share (BitVec k)) : Rep3M R M (Share (BitVec 1)) := do
  let bBits ← a2bSelector y
  let (_, r) ← subFromConstWithCarry x bBits
  pure r

/-- `/repo/mpc-core/src/protocols/rep3_ring/detail.rs:316-328` -/
def unsignedGeConstRhs (x : Share (BitVec k)) (y : BitVec k) : Rep3M R M (Share (BitVec 1)) := do
  let aBits ← a2bSelector x
  let (_, r) ← subByConstWithCarry aBits y
  pure r

/-- `/repo/mpc-core/src/protocols/rep3_ring/arithmetic.rs:438-448` -/
def ge (lhs rhs : Share (BitVec k)) : Rep3M R M (Share (BitVec 1)) := unsignedGe lhs rhs

/-- `/repo/mpc-core/src/protocols/rep3_ring/arithmetic.rs:451-461` -/
def gePublic (lhs : Share (BitVec k)) (rhs : BitVec k) : Rep3M R M (Share (BitVec 1)) :=
  unsignedGeConstRhs lhs rhs

/-- `/repo/mpc-core/src/protocols/rep3_ring/arithmetic.rs:351-363` -/
def lt (lhs rhs : Share (BitVec k)) : Rep3M R M (Share (BitVec 1)) := do
  let tmp ← ge lhs rhs
  let id ← stateId
  pure (subPublicByShared 1#1 tmp id)

/-- `/repo/mpc-core/src/protocols/rep3_ring/arithmetic.rs:366-378` -/
def ltPublic (lhs : Share (BitVec k)) (rhs : BitVec k) : Rep3M R M (Share (BitVec 1)) := do
  let tmp ← gePublic lhs rhs
  pure tmp.bnot

/-- `/repo/mpc-core/src/protocols/rep3_ring/arithmetic.rs:381-392` -/
def le (lhs rhs : Share (BitVec k)) : Rep3M R M (Share (BitVec 1)) := ge rhs lhs

/-- `/repo/mpc-core/src/protocols/rep3_ring/arithmetic.rs:395-405` -/
def lePublic (lhs : Share (BitVec k)) (rhs : BitVec k) : Rep3M R M (Share (BitVec 1)) :=
  unsignedGeConstLhs rhs lhs

/-- `/repo/mpc-core/src/protocols/rep3_ring/arithmetic.rs:408-420` -/
def gt (lhs rhs : Share (BitVec k)) : Rep3M R M (Share (BitVec 1)) := do
  let tmp ← le lhs rhs
  pure tmp.bnot

/-- `/repo/mpc-core/src/protocols/rep3_ring/arithmetic.rs:423-435` -/
def gtPublic (lhs : Share (BitVec k)) (rhs : BitVec k) : Rep3M R M (Share (BitVec 1)) := do
  let tmp ← lePublic lhs rhs
  pure tmp.bnot

/-- `/repo/mpc-core/src/protocols/rep3_ring/arithmetic.rs:478-491` -/
def eq (a b : Share (BitVec k)) : Rep3M R M (Share (BitVec 1)) := do
  let diff := sub a b
  let bits ← a2bSelector diff
  isZeroBits bits

/-- `/repo/mpc-core/src/protocols/rep3_ring/arithmetic.rs:464-475` -/
def eqPublic (shared : Share (BitVec k)) (pub : BitVec k) : Rep3M R M (Share (BitVec 1)) := do
  let id ← stateId
  eq shared (promoteToTrivialShare id pub)

/-- `/repo/mpc-core/src/protocols/rep3_ring/arithmetic.rs:494-505` -/
def neq (a b : Share (BitVec k)) : Rep3M R M (Share (BitVec 1)) := do
  let e ← eq a b
  pure e.bnot

/-- `/repo/mpc-core/src/protocols/rep3_ring/arithmetic.rs:508-519` -/
def neqPublic (shared : Share (BitVec k)) (pub : BitVec k) : Rep3M R M (Share (BitVec 1)) := do
  let id ← stateId
  neq shared (promoteToTrivialShare id pub)

/-- `/repo/mpc-core/src/protocols/rep3_ring/arithmetic.rs:522-534` -/
def isZero [UintCodec M 1] (a : Share (BitVec k)) : Rep3M R M Bool := do
  let res ← eq Share.zeroShare a
  let x ← openBits res
  pure (decide (x = 1#1))

end Compare

/-! ### Casts -/

section Casts

variable {l : Nat}

/-- `/repo/mpc-core/src/protocols/rep3_ring/casts.rs:66-77`; `none` is the failed assertion. -/
def downcast (share : Share (BitVec k)) : Option (Share (BitVec l)) :=
  if l ≤ k then some (share.castTo l) else none

/-- `Option` results of local functions that panic. -/
def orPanic {α : Type} (x : Option α) : Rep3M R M α :=
  match x with
  | some x => pure x
  | none => panicWith "assertion failed"

variable [Sample R (BitVec k)] [UintCodec M k] [Sample R (BitVec l)] [UintCodec M l]

/-- `/repo/mpc-core/src/protocols/rep3_ring/casts.rs:81-106`.  The type test `T == Bit` is `k = 1`: `Bit` is
the only ring of width one. -/
def upcastA2B (share : Share (BitVec k)) : Rep3M R M (Share (BitVec l)) :=
  if ¬ k < l then panicWith "assertion failed: T::K < U::K"
  else if k = 1 then bitInjectFromBit (share.castTo 1)
  else do
    let binary ← a2b share
    b2a (binary.castTo l)

/-- `/repo/mpc-core/src/protocols/rep3_ring/casts.rs:109-125` -/
def castA2B (share : Share (BitVec k)) : Rep3M R M (Share (BitVec l)) :=
  if l ≤ k then orPanic (downcast share) else upcastA2B share

omit [Sample R (BitVec k)] [UintCodec M k] in
/-- `yao::upcast_many`, `/repo/mpc-core/src/protocols/rep3_ring/yao.rs:878-908` -/
def upcastMany [Yao.YaoRng R] [Yao.YaoNet M] (inputs : List (Share (BitVec k))) :
    Rep3M R M (List (Share (BitVec l))) :=
  if ¬ k < l then panicWith "assertion failed: T::K < U::K"
  else if k = 1 then bitInjectFromBitsMany (inputs.map fun s => s.castTo 1)
  else Yao.upcastManyGc inputs

omit [Sample R (BitVec k)] [UintCodec M k] in
/-- `/repo/mpc-core/src/protocols/rep3_ring/casts.rs:128-144` -/
def castGc [Yao.YaoRng R] [Yao.YaoNet M] (share : Share (BitVec k)) : Rep3M R M (Share (BitVec l)) :=
  if l ≤ k then orPanic (downcast share)
  else do
    let res ← upcastMany [share]
    Yao.first res

/-- `/repo/mpc-core/src/protocols/rep3_ring/casts.rs:17-32` -/
def ringCastSelector [Yao.YaoRng R] [Yao.YaoNet M] (share : Share (BitVec k)) : Rep3M R M (Share (BitVec l)) := do
  match ← stateA2BType with
  | .direct => castA2B share
  | .yao => castGc share

variable {w p : Nat} [Sample R (BitVec w)] [UintCodec M w] [Sample R (ZMod p)] [Codec M (List (ZMod p))]

variable (w) in
omit [Sample R (ZMod p)] [Codec M (List (ZMod p))] in
/-- `/repo/mpc-core/src/protocols/rep3_ring/casts.rs:147-161`; `w` is the width of the field's uint. -/
def fieldToRingA2B (share : Share (ZMod p)) : Rep3M R M (Share (BitVec k)) := do
  let binary ← Rep3.a2b (w := w) share
  b2a (binary.castTo k)

variable (w) in
omit [Sample R (ZMod p)] [Codec M (List (ZMod p))] in
/-- `/repo/mpc-core/src/protocols/rep3_ring/casts.rs:164-181` -/
def fieldToRingA2BMany (shares : List (Share (ZMod p))) : Rep3M R M (List (Share (BitVec k))) := do
  let binary ← Rep3.a2bMany (w := w) shares
  b2aMany (binary.map fun b => b.castTo k)

variable (w) in
/-- `/repo/mpc-core/src/protocols/rep3_ring/casts.rs:184-207` -/
def ringToFieldA2B (share : Share (BitVec k)) : Rep3M R M (Share (ZMod p)) :=
  if k = 1 then Rep3.bitInject (share.castTo w)
  else do
    let binary ← a2b share
    Rep3.b2a (binary.castTo w)

variable (w) in
/-- `/repo/mpc-core/src/protocols/rep3_ring/casts.rs:210-248` -/
def ringToFieldA2BMany (shares : List (Share (BitVec k))) : Rep3M R M (List (Share (ZMod p))) :=
  if k = 1 then Rep3.bitInjectMany (shares.map fun s => s.castTo w)
  else do
    let binary ← a2bMany shares
    Rep3.b2aMany (binary.map fun b => b.castTo w)

variable (w) in
/-- `/repo/mpc-core/src/protocols/rep3_ring/casts.rs:251-268` -/
def ringToFieldA2BBigRing (share : Share (BitVec k)) : Rep3M R M (Share (ZMod p)) := do
  let binary ← a2b share
  let m := (Uint.mask w (modBits p)).setWidth k
  Rep3.b2a ((binary.andMask m).castTo w)

variable (w) in
/-- `/repo/mpc-core/src/protocols/rep3_ring/casts.rs:271-292` -/
def ringToFieldA2BBigRingMany (shares : List (Share (BitVec k))) : Rep3M R M (List (Share (ZMod p))) := do
  let binary ← a2bMany shares
  let m := (Uint.mask w (modBits p)).setWidth k
  Rep3.b2aMany (binary.map fun b => (b.andMask m).castTo w)

variable (w) in
omit [Sample R (BitVec k)] [UintCodec M k] in
/-- `yao::ring_to_field_many`, `/repo/mpc-core/src/protocols/rep3_ring/yao.rs:360-469` -/
def ringToFieldMany [Yao.YaoRng R] [Yao.YaoNet M] (inputs : List (Share (BitVec k))) :
    Rep3M R M (List (Share (ZMod p))) :=
  if k = 1 then Rep3.bitInjectMany (inputs.map fun s => s.castTo w)
  else Yao.ringToFieldManyGc w inputs

variable (w) in
/-- `/repo/mpc-core/src/protocols/rep3_ring/casts.rs:35-47` -/
def ringToFieldSelector [Yao.YaoRng R] [Yao.YaoNet M] (share : Share (BitVec k)) : Rep3M R M (Share (ZMod p)) := do
  match ← stateA2BType with
  | .direct => ringToFieldA2B w share
  | .yao => do
    let res ← ringToFieldMany w [share]
    Yao.first res

variable (w) in
omit [Sample R (ZMod p)] [Codec M (List (ZMod p))] in
/-- `/repo/mpc-core/src/protocols/rep3_ring/casts.rs:50-62` -/
def fieldToRingSelector [Yao.YaoRng R] [Yao.YaoNet M] (share : Share (ZMod p)) : Rep3M R M (Share (BitVec k)) := do
  match ← stateA2BType with
  | .direct => fieldToRingA2B w share
  | .yao => do
    let res ← Yao.fieldToRingMany [share]
    Yao.first res

end Casts

end Rep3.Ring

end Verif
