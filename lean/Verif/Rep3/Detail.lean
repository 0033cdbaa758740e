import Verif.Rep3.Binary

/-!
# Logarithmic-depth adders on binary shares

Models `/repo/mpc-core/src/protocols/rep3/detail.rs:18-324` and `375-415`.  The `debug_assert`s are not
modelled (release build).
-/

namespace Verif.Rep3.Bin

open PartyID
open MPC (bail panicWith)

variable {R M : Type} {w : Nat} [Sample R (BitVec w)] [UintCodec M w]

/-- The loop of `ceil_log2`: number of halvings until zero.
`/repo/mpc-core/src/protocols/rep3/detail.rs:225-228` -/
def halvings (x : Nat) : Nat := if x = 0 then 0 else halvings (x / 2) + 1
termination_by x
decreasing_by omega

/-- `/repo/mpc-core/src/protocols/rep3/detail.rs:222-230` -/
def ceilLog2 (x : Nat) : Nat := halvings (x - 1)

/-- `/repo/mpc-core/src/protocols/rep3/detail.rs:267-295`; both results travel in one message. -/
def andTwice (a b1 b2 : Share (BitVec w)) (bitlen : Nat) :
    Rep3M R M (Share (BitVec w) × Share (BitVec w)) := do
  let mask1 ← maskBits bitlen
  let mask2 ← maskBits bitlen
  let localA1 := b1.localAnd a ^^^ mask1
  let localA2 := a.localAnd b2 ^^^ mask2
  let (localB1, localB2) ← reshare (localA1, localA2)
  pure (⟨localA1, localB1⟩, ⟨localA2, localB2⟩)

/-- The operands of `and_twice_many_iter`: `(a, b1, b2)`; the iterators are computed from the same slices.
`/repo/mpc-core/src/protocols/rep3/detail.rs:233-265` -/
def andTwiceMany (abs : List (Share (BitVec w) × Share (BitVec w) × Share (BitVec w)))
    (bitlen : Nat) : Rep3M R M (List (Share (BitVec w)) × List (Share (BitVec w))) := do
  let locals ← abs.mapM fun (x : Share (BitVec w) × Share (BitVec w) × Share (BitVec w)) => do
    let mask1 ← maskBits bitlen
    let mask2 ← maskBits bitlen
    pure (x.2.1.localAnd x.1 ^^^ mask1, x.1.localAnd x.2.2 ^^^ mask2)
  let a1 := locals.map Prod.fst
  let a2 := locals.map Prod.snd
  let (b1, b2) ← reshare (a1, a2)
  pure (List.zipWith Share.mk a1 b1, List.zipWith Share.mk a2 b2)

/-- One round of the Kogge-Stone adder. `/repo/mpc-core/src/protocols/rep3/detail.rs:115-125` -/
def koggeStoneRound (bitlen : Nat) (pg : Share (BitVec w) × Share (BitVec w)) (i : Nat) :
    Rep3M R M (Share (BitVec w) × Share (BitVec w)) := do
  let shift := 2 ^ i
  let m := Uint.mask w (bitlen - shift)
  let p_ := pg.1.andMask m
  let g_ := pg.2.andMask m
  let pShift := pg.1.shr shift
  let (r1, r2) ← andTwice pShift g_ p_ (bitlen - shift)
  pure (r2.shl shift, pg.2.bxor (r1.shl shift))

/-- `/repo/mpc-core/src/protocols/rep3/detail.rs:101-130` -/
def koggeStoneInner (p g : Share (BitVec w)) (bitlen : Nat) : Rep3M R M (Share (BitVec w)) := do
  let d := ceilLog2 bitlen
  let s := p
  let (_, g) ← (List.range d).foldlM (koggeStoneRound bitlen) (p, g)
  pure ((g.shl 1).bxor s)

/-- One round of the vector adder. `/repo/mpc-core/src/protocols/rep3/detail.rs:55-68` -/
def koggeStoneRoundMany (bitlen : Nat) (pg : List (Share (BitVec w)) × List (Share (BitVec w)))
    (i : Nat) : Rep3M R M (List (Share (BitVec w)) × List (Share (BitVec w))) := do
  let shift := 2 ^ i
  let m := Uint.mask w (bitlen - shift)
  let p_ := pg.1.map fun p => p.andMask m
  let g_ := pg.2.map fun g => g.andMask m
  let pShift := pg.1.map fun p => p.shr shift
  let (r1, r2) ← andTwiceMany (pShift.zip (g_.zip p_)) (bitlen - shift)
  pure (List.zipWith (fun _ (r : Share (BitVec w)) => r.shl shift) pg.1 r2,
    List.zipWith (fun (g r : Share (BitVec w)) => g.bxor (r.shl shift)) pg.2 r1)

/-- `/repo/mpc-core/src/protocols/rep3/detail.rs:43-75` -/
def koggeStoneInnerMany (p g : List (Share (BitVec w))) (bitlen : Nat) :
    Rep3M R M (List (Share (BitVec w))) := do
  let d := ceilLog2 bitlen
  let s := p
  let (_, g) ← (List.range d).foldlM (koggeStoneRoundMany bitlen) (p, g)
  pure (List.zipWith (fun (g s : Share (BitVec w)) => (g.shl 1).bxor s) g s)

/-- `/repo/mpc-core/src/protocols/rep3/detail.rs:88-99` -/
def lowDepthBinaryAdd (x1 x2 : Share (BitVec w)) (bitlen : Nat) : Rep3M R M (Share (BitVec w)) := do
  let p := x1.bxor x2
  let g ← and x1 x2
  koggeStoneInner p g bitlen

/-- `/repo/mpc-core/src/protocols/rep3/detail.rs:29-41` -/
def lowDepthBinaryAddMany (x1 x2 : List (Share (BitVec w))) (bitlen : Nat) :
    Rep3M R M (List (Share (BitVec w))) := do
  let p := List.zipWith Share.bxor x1 x2
  let g ← andVec x1 x2
  koggeStoneInnerMany p g bitlen

/-- `/repo/mpc-core/src/protocols/rep3/detail.rs:297-309`; `p` is the field modulus. -/
def lowDepthBinarySubP (p : Nat) (x : Share (BitVec w)) (bitlen : Nat) :
    Rep3M R M (Share (BitVec w)) :=
  let p_ := (1#w <<< bitlen) - Uint.modulus w p
  koggeStoneInner (x.xorMask p_) (x.andMask p_) bitlen

/-- `/repo/mpc-core/src/protocols/rep3/detail.rs:311-324` -/
def lowDepthBinarySubPMany (p : Nat) (x : List (Share (BitVec w))) (bitlen : Nat) :
    Rep3M R M (List (Share (BitVec w))) :=
  let p_ := (1#w <<< bitlen) - Uint.modulus w p
  koggeStoneInnerMany (x.map fun s => s.xorMask p_) (x.map fun s => s.andMask p_) bitlen

/-- Spread bit 0 of both components over a mask. `/repo/mpc-core/src/protocols/rep3/detail.rs:149-159`,
`180-190` -/
def spread (s : Share (BitVec w)) (m : BitVec w) : Share (BitVec w) :=
  ⟨if s.a.getLsbD 0 then m else 0#w, if s.b.getLsbD 0 then m else 0#w⟩

/-- `/repo/mpc-core/src/protocols/rep3/detail.rs:166-195` -/
def lowDepthSubPCmux (p : Nat) (x : Share (BitVec w)) (bitlen : Nat) :
    Rep3M R M (Share (BitVec w)) := do
  let originalBitlen := bitlen - 1
  let m := Uint.mask w originalBitlen
  let y ← lowDepthBinarySubP p x bitlen
  let x := x.andMask m
  let yMsb := y.shr bitlen
  let y := y.andMask m
  cmux (spread yMsb m) y x

/-- `/repo/mpc-core/src/protocols/rep3/detail.rs:132-164` -/
def lowDepthSubPCmuxMany (p : Nat) (x : List (Share (BitVec w))) (bitlen : Nat) :
    Rep3M R M (List (Share (BitVec w))) := do
  let originalBitlen := bitlen - 1
  let m := Uint.mask w originalBitlen
  let y ← lowDepthBinarySubPMany p x bitlen
  let x := x.map fun s => s.andMask m
  let yMsb := y.map fun s => s.shr bitlen
  let y := y.map fun s => s.andMask m
  cmuxMany (yMsb.map fun s => spread s m) y x

/-- `/repo/mpc-core/src/protocols/rep3/detail.rs:77-86` -/
def lowDepthBinaryAddModP (p : Nat) (x1 x2 : Share (BitVec w)) (bitlen : Nat) :
    Rep3M R M (Share (BitVec w)) := do
  let x ← lowDepthBinaryAdd x1 x2 bitlen
  lowDepthSubPCmux p x (bitlen + 1)

/-- `/repo/mpc-core/src/protocols/rep3/detail.rs:18-27` -/
def lowDepthBinaryAddModPMany (p : Nat) (x1 x2 : List (Share (BitVec w))) (bitlen : Nat) :
    Rep3M R M (List (Share (BitVec w))) := do
  let x ← lowDepthBinaryAddMany x1 x2 bitlen
  lowDepthSubPCmuxMany p x (bitlen + 1)

/-- `/repo/mpc-core/src/protocols/rep3/detail.rs:197-220`: `2^bitlen + x1 - x2`. -/
def lowDepthBinarySub (x1 x2 : Share (BitVec w)) (bitlen : Nat) : Rep3M R M (Share (BitVec w)) := do
  let m := Uint.mask w bitlen
  let x2 := x2.xorMask m
  let p := x1.bxor x2
  let g ← and x1 x2
  let g := g.bxor (p.andMask 1#w)
  let res ← koggeStoneInner p g bitlen
  pure (res.xorMask 1#w)

/-- `/repo/mpc-core/src/protocols/rep3/detail.rs:375-391`; `bits` is `F::MODULUS_BIT_SIZE`. -/
def lowDepthBinarySubByConst (bits : Nat) (x1 : Share (BitVec w)) (x2 : BitVec w) :
    Rep3M R M (Share (BitVec w)) :=
  let x2_ := (1#w <<< bits) - x2
  koggeStoneInner (x1.xorMask x2_) (x1.andMask x2_) bits

/-- `/repo/mpc-core/src/protocols/rep3/detail.rs:393-415` -/
def lowDepthBinarySubFromConst (bits : Nat) (x1 : BitVec w) (x2 : Share (BitVec w)) :
    Rep3M R M (Share (BitVec w)) := do
  let m := Uint.mask w bits
  let x2 := x2.xorMask m
  let p := x2.xorMask x1
  let g := x2.andMask x1
  let g := g.bxor (p.andMask 1#w)
  let res ← koggeStoneInner p g bits
  pure (res.xorMask 1#w)

end Verif.Rep3.Bin
