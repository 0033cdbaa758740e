import Verif.Rep3.Conversion
import Verif.Rep3.Point
import Verif.Spec.Curve

/-!
# Model: conversions between shared points and shared coordinates

Models `/repo/mpc-core/src/protocols/rep3/conversion.rs:841-1312`,
`/repo/mpc-core/src/protocols/rep3/detail.rs:417-540` and the zero test of
`/repo/mpc-core/src/protocols/rep3/pointshare.rs:224-264`.

The curve is `y² = x³ + a x + b` over `ZMod p` for any prime `p` and any `a`, `b`; a point is Mathlib's
(affine, non-singular) point.  Affine and projective representations are not distinguished.
`w` is the width of the unsigned integer type attached to the field.
-/

namespace Verif.Rep3.Curve

open PartyID
open MPC (bail panicWith)

variable {R M : Type} {p w : Nat} [Fact p.Prime] {a b : ZMod p}

/-- `into_affine().xy()` of the curve library: `None` for the point at infinity. -/
def xy : Pt a b → Option (ZMod p × ZMod p)
  | .zero => none
  | .some x y _ => some (x, y)

instance (x y : ZMod p) : Decidable ((curve a b).Nonsingular x y) :=
  decidable_of_iff' ((y ^ 2 + (curve a b).a₁ * x * y + (curve a b).a₃ * y =
      x ^ 3 + (curve a b).a₂ * x ^ 2 + (curve a b).a₄ * x + (curve a b).a₆) ∧
    ((curve a b).a₁ * y ≠ 3 * x ^ 2 + 2 * (curve a b).a₂ * x + (curve a b).a₄ ∨
      y ≠ -y - (curve a b).a₁ * x - (curve a b).a₃))
    (by rw [WeierstrassCurve.Affine.nonsingular_iff, WeierstrassCurve.Affine.equation_iff])

/-- `point_from_xy`. The library constructor panics for coordinates that are not on the curve (the
curves it is called for have prime order, so the subgroup check it also makes always succeeds).
`/repo/mpc-core/src/protocols/rep3/detail.rs:512-540` -/
def pointFromXY (x y isInf : ZMod p) : Rep3M R M (Pt a b) :=
  if 1 < isInf.val then bail "Invalid is_infinity"
  else if isInf = 1 then pure 0
  else if h : (curve a b).Nonsingular x y then pure (.some x y h)
  else panicWith "assertion failed: point.is_on_curve()"

/-- The coordinates of a point plus the masks, or the masks alone for the point at infinity.
`/repo/mpc-core/src/protocols/rep3/conversion.rs:879-885`, `1083-1089` -/
def maskedCoords (P : Pt a b) (rx ry : ZMod p) : ZMod p × ZMod p :=
  match xy P with
  | some (x, y) => (x + rx, y + ry)
  | none => (rx, ry)

/-- This party's components of the coordinates of `x01`, before resharing.
`/repo/mpc-core/src/protocols/rep3/conversion.rs:868-895`, `936-988` -/
def preOwn (id : PartyID) (x : Share (Pt a b)) (rx ry : ZMod p) : ZMod p × ZMod p :=
  match id with
  | ID0 => (rx, ry)
  | ID1 => maskedCoords (x.a + x.b) rx ry
  | ID2 => (rx, ry)

/-- The shares of the coordinates of `x2`.
`/repo/mpc-core/src/protocols/rep3/conversion.rs:868-895`, `936-988` -/
def preOther (id : PartyID) (x : Share (Pt a b)) : Share (ZMod p) × Share (ZMod p) :=
  match id with
  | ID0 =>
    match xy x.b with
    | some (x, y) => (⟨0, x⟩, ⟨0, y⟩)
    | none => (Share.zeroShare, Share.zeroShare)
  | ID1 => (Share.zeroShare, Share.zeroShare)
  | ID2 =>
    match xy x.a with
    | some (x, y) => (⟨x, 0⟩, ⟨y, 0⟩)
    | none => (Share.zeroShare, Share.zeroShare)

variable [Sample R (ZMod p)] [Codec M (List (ZMod p))]

/-- Result: the coordinates of `x01` and those of `x2`.
`/repo/mpc-core/src/protocols/rep3/conversion.rs:842-906` -/
def pre (x : Share (Pt a b)) :
    Rep3M R M (Share (ZMod p) × Share (ZMod p) × Share (ZMod p) × Share (ZMod p)) :=
  if x.a = 0 ∨ x.b = 0 then panicWith "This fails if one share is zero"
  else do
    let rx ← maskElem
    let ry ← maskElem
    let id ← stateId
    let x01 := preOwn id x rx ry
    let x2 := preOther id x
    let localB ← reshareMany [x01.1, x01.2]
    match localB with
    | [bx, by'] => pure (⟨x01.1, bx⟩, ⟨x01.2, by'⟩, x2.1, x2.2)
    | _ => bail "Expected 2 elements"

/-- One pair of masks is drawn and used for every element.
`/repo/mpc-core/src/protocols/rep3/conversion.rs:909-1002` -/
def preMany (x : List (Share (Pt a b))) :
    Rep3M R M (List (Share (ZMod p)) × List (Share (ZMod p)) × List (Share (ZMod p)) ×
      List (Share (ZMod p))) :=
  if ¬ x.all (fun s => !(decide (s.a = 0) || decide (s.b = 0))) then
    panicWith "This fails if one share is zero"
  else do
    let rx ← maskElem
    let ry ← maskElem
    let id ← stateId
    let x01 := x.map fun s => preOwn id s rx ry
    let x2 := x.map (preOther id)
    let localB ← reshareMany (x01.map Prod.fst ++ x01.map Prod.snd)
    if localB.length ≠ 2 * x.length then bail "Expected 2*len elements"
    else pure (List.zipWith Share.mk (x01.map Prod.fst) (localB.take x.length),
      List.zipWith Share.mk (x01.map Prod.snd) (localB.drop x.length),
      x2.map Prod.fst, x2.map Prod.snd)

variable [Sample R (BitVec w)] [UintCodec M w] [SampleVec R (ZMod p)] [Yao.YaoRng R] [Yao.YaoNet M]

variable (w) in
/-- The difference of the x-coordinates, replaced by one where it is zero, and the zero flag.
`/repo/mpc-core/src/protocols/rep3/detail.rs:434-444` -/
def diffOrOne (ax bx : Share (ZMod p)) : Rep3M R M (Share (ZMod p) × Share (ZMod p)) := do
  let diffX := sub bx ax
  let isZero ← eq w Share.zeroShare diffX
  let id ← stateId
  let m ← mul (addPublic (neg diffX) 1 id) isZero
  pure (add diffX m, isZero)

variable (w) in
/-- `/repo/mpc-core/src/protocols/rep3/detail.rs:422-457` -/
def pointAddition (ax ay bx by' : Share (ZMod p)) :
    Rep3M R M (Share (ZMod p) × Share (ZMod p) × Share (ZMod p)) := do
  let diffY := sub by' ay
  let d ← diffOrOne w ax bx
  let i ← inv d.1
  let lambda ← mul diffY i
  let lambdaSquare ← mul lambda lambda
  let x := sub (sub lambdaSquare ax) bx
  let y ← mul lambda (sub ax x)
  pure (x, sub y ay, d.2)

variable (w) in
/-- `/repo/mpc-core/src/protocols/rep3/detail.rs:477-490` -/
def diffOrOneMany (ax bx : List (Share (ZMod p))) :
    Rep3M R M (List (Share (ZMod p)) × List (Share (ZMod p))) := do
  let diffXs := List.zipWith sub bx ax
  let isZero ← eqMany w (List.replicate diffXs.length Share.zeroShare) diffXs
  let id ← stateId
  let tmp := diffXs.map fun d => subPublicByShared 1 d id
  let m ← mulVec tmp isZero
  pure (List.zipWith add diffXs m, isZero)

variable (w) in
/-- `/repo/mpc-core/src/protocols/rep3/detail.rs:465-510` -/
def pointAdditionMany (ax ay bx by' : List (Share (ZMod p))) :
    Rep3M R M (List (Share (ZMod p)) × List (Share (ZMod p)) × List (Share (ZMod p))) := do
  let diffYs := List.zipWith sub by' ay
  let d ← diffOrOneMany w ax bx
  let i ← invVec d.1
  let lambda ← mulVec diffYs i
  let lambdaSquare ← mulVec lambda lambda
  let x := List.zipWith sub (List.zipWith sub lambdaSquare ax) bx
  let y ← mulVec lambda (List.zipWith sub ax x)
  pure (x, List.zipWith sub y ay, d.2)

variable (w) in
/-- `/repo/mpc-core/src/protocols/rep3/conversion.rs:1004-1022` -/
def pointShareToFieldshares (x : Share (Pt a b)) :
    Rep3M R M (Share (ZMod p) × Share (ZMod p) × Share (ZMod p)) := do
  let (x01x, x01y, x2x, x2y) ← pre x
  pointAddition w x01x x01y x2x x2y

variable (w) in
/-- `/repo/mpc-core/src/protocols/rep3/conversion.rs:1024-1042` -/
def pointShareToFieldsharesMany (x : List (Share (Pt a b))) :
    Rep3M R M (List (Share (ZMod p)) × List (Share (ZMod p)) × List (Share (ZMod p))) := do
  let (x01x, x01y, x2x, x2y) ← preMany x
  pointAdditionMany w x01x x01y x2x x2y

variable (w) in
/-- `/repo/mpc-core/src/protocols/rep3/pointshare.rs:227-240` -/
def isZero (x : Share (Pt a b)) : Rep3M R M (Bool × Bool) := do
  let (ax, _, bx, _) ← pre x
  let isEqual ← eqBit w ax bx
  pure (decide (isEqual.a ≠ 0#w), decide (isEqual.b ≠ 0#w))

variable (w) in
/-- `/repo/mpc-core/src/protocols/rep3/pointshare.rs:245-264` -/
def isZeroMany (x : List (Share (Pt a b))) : Rep3M R M (List (Bool × Bool)) := do
  let (ax, _, bx, _) ← preMany x
  let isEqual ← eqBitMany w ax bx
  if isEqual.length ≠ x.length then bail "Expected len elements"
  else pure (isEqual.map fun e => (decide (e.a ≠ 0#w), decide (e.b ≠ 0#w)))

variable [Sample R (Pt a b)]

/-- `state.rngs.bitcomp1.random_curves_3keys()`, the three keys added up.
`/repo/mpc-core/src/protocols/rep3/rngs.rs:293-301` -/
def bitcomp1Curves : Rep3M R M (Pt a b) :=
  withRngs? fun g => (g.bitcomp1.random3 (α := Pt a b)).map fun (x, c) =>
    (x.1 + x.2.1 + x.2.2, { g with bitcomp1 := c })

/-- `state.rngs.bitcomp2.random_curves_3keys()`, the three keys added up.
`/repo/mpc-core/src/protocols/rep3/rngs.rs:293-301` -/
def bitcomp2Curves : Rep3M R M (Pt a b) :=
  withRngs? fun g => (g.bitcomp2.random3 (α := Pt a b)).map fun (x, c) =>
    (x.1 + x.2.1 + x.2.2, { g with bitcomp2 := c })

/-- This party's components of the coordinates of the random point `y` and of the result.
`/repo/mpc-core/src/protocols/rep3/conversion.rs:1062-1098`, `1180-1224` -/
def pointKeys (id : PartyID) (rx ry : ZMod p) : Rep3M R M ((ZMod p × ZMod p) × Share (Pt a b)) :=
  match id with
  | ID0 => do
    let k3 ← bitcomp2Curves
    pure ((rx, ry), ⟨0, -k3⟩)
  | ID1 => do
    let k2 ← bitcomp1Curves
    pure ((rx, ry), ⟨-k2, 0⟩)
  | ID2 => do
    let k2 ← bitcomp1Curves
    let k3 ← bitcomp2Curves
    pure (maskedCoords (k2 + k3) rx ry, ⟨-k3, -k2⟩)

/-- Opening of the coordinates towards parties 0 and 1.
`/repo/mpc-core/src/protocols/rep3/conversion.rs:1114-1147` -/
def pointOpen (id : PartyID) (zx zy zi : Share (ZMod p)) (res : Share (Pt a b)) :
    Rep3M R M (Share (Pt a b)) :=
  match id with
  | ID0 => do
    sendNextMany [zx.b, zy.b, zi.b]
    let rcv ← recvPrevMany (α := ZMod p)
    match rcv with
    | [rx, ry, ri] => do
      let v ← pointFromXY (zx.a + zx.b + rx) (zy.a + zy.b + ry) (zi.a + zi.b + ri)
      pure { res with a := v }
    | _ => bail "Expected 3 elements"
  | ID1 => do
    let rcv ← recvPrevMany (α := ZMod p)
    match rcv with
    | [rx, ry, ri] => do
      let v ← pointFromXY (zx.a + zx.b + rx) (zy.a + zy.b + ry) (zi.a + zi.b + ri)
      pure { res with b := v }
    | _ => bail "Expected 3 elements"
  | ID2 => do
    sendNextMany [zx.b, zy.b, zi.b]
    pure res

/-- A random point known to party 2: shares of its coordinates, and the parts of the result that are
already known. `/repo/mpc-core/src/protocols/rep3/conversion.rs:1055-1106` -/
def pointMask : Rep3M R M ((Share (ZMod p) × Share (ZMod p)) × Share (Pt a b)) := do
  let rx ← maskElem
  let ry ← maskElem
  let id ← stateId
  let (ya, res) ← pointKeys id rx ry
  let localB ← reshareMany [ya.1, ya.2]
  match localB with
  | [bx, by'] => pure ((⟨ya.1, bx⟩, ⟨ya.2, by'⟩), res)
  | _ => bail "Expected 2 elements"

variable (w) in
/-- `/repo/mpc-core/src/protocols/rep3/conversion.rs:1045-1151` -/
def fieldsharesToPointshare (x y isInf : Share (ZMod p)) : Rep3M R M (Share (Pt a b)) := do
  let m ← pointMask (a := a) (b := b)
  let z ← pointAddition w x y m.1.1 m.1.2
  let c ← cmuxVec isInf [m.1.1, m.1.2] [z.1, z.2.1]
  let id ← stateId
  match c with
  | [cx, cy] => pointOpen id cx cy z.2.2 m.2
  | _ => panicWith "index out of bounds"

/-- The points made from the opened coordinates, one after the other.
`/repo/mpc-core/src/protocols/rep3/conversion.rs:1284-1290`, `1298-1304` -/
def pointsFromXY (xs ys infs : List (ZMod p)) : Rep3M R M (List (Pt a b)) :=
  ((xs.zip ys).zip infs).mapM fun (v : (ZMod p × ZMod p) × ZMod p) => pointFromXY v.1.1 v.1.2 v.2

/-- Opening of the coordinates towards parties 0 and 1, for vectors of length `n`; what is received is
cut into the three vectors. `/repo/mpc-core/src/protocols/rep3/conversion.rs:1260-1311` -/
def pointOpenMany (n : Nat) (id : PartyID) (zx zy zi : List (Share (ZMod p)))
    (res : List (Share (Pt a b))) : Rep3M R M (List (Share (Pt a b))) :=
  let zA := zx.map Share.a ++ zy.map Share.a ++ zi.map Share.a
  let zB := zx.map Share.b ++ zy.map Share.b ++ zi.map Share.b
  match id with
  | ID0 => do
    sendNextMany zB
    let rcv ← recvPrevMany (α := ZMod p)
    if rcv.length ≠ 3 * n then bail "Expected 3 * len elements"
    else do
      let v := List.zipWith (· + ·) (List.zipWith (· + ·) zA zB) rcv
      let ps ← pointsFromXY (a := a) (b := b) (v.take n) ((v.drop n).take n) (v.drop (2 * n))
      pure (List.zipWith (fun (s : Share (Pt a b)) q => { s with a := q }) res ps)
  | ID1 => do
    let rcv ← recvPrevMany (α := ZMod p)
    if rcv.length ≠ 3 * n then bail "Expected 3 * len elements"
    else do
      let v := List.zipWith (· + ·) (List.zipWith (· + ·) zA zB) rcv
      let ps ← pointsFromXY (a := a) (b := b) (v.take n) ((v.drop n).take n) (v.drop (2 * n))
      pure (List.zipWith (fun (s : Share (Pt a b)) q => { s with b := q }) res ps)
  | ID2 => do
    sendNextMany zB
    pure res

/-- The vector form of `pointMask`.
`/repo/mpc-core/src/protocols/rep3/conversion.rs:1165-1240` -/
def pointMaskMany [Codec M (List (List (ZMod p)))] (n : Nat) :
    Rep3M R M ((List (Share (ZMod p)) × List (Share (ZMod p))) × List (Share (Pt a b))) := do
  let rxs ← withRand fun g => g.maskingFieldVec (α := ZMod p) n
  let rys ← withRand fun g => g.maskingFieldVec (α := ZMod p) n
  let id ← stateId
  let keys ← (rxs.zip rys).mapM fun (r : ZMod p × ZMod p) => pointKeys (a := a) (b := b) id r.1 r.2
  let yxa := keys.map fun k => k.1.1
  let yya := keys.map fun k => k.1.2
  let localB ← reshareMany [yxa, yya]
  match localB with
  | [bx, by'] =>
    if bx.length < n ∨ by'.length < n then panicWith "index out of bounds"
    else pure ((List.zipWith Share.mk yxa bx, List.zipWith Share.mk yya by'), keys.map fun k => k.2)
  | _ => bail "Expected 2 vectors"

variable (w) in
/-- For three vectors of the same length.
`/repo/mpc-core/src/protocols/rep3/conversion.rs:1154-1312` -/
def fieldsharesToPointshareMany [Codec M (List (List (ZMod p)))] (x y isInf : List (Share (ZMod p))) :
    Rep3M R M (List (Share (Pt a b))) := do
  let k ← pointMaskMany (a := a) (b := b) x.length
  let z ← pointAdditionMany w x y k.1.1 k.1.2
  let m ← mulVec (isInf ++ isInf) (List.zipWith sub k.1.1 z.1 ++ List.zipWith sub k.1.2 z.2.1)
  let first := List.zipWith add (m.take isInf.length) z.1
  let second := List.zipWith add (m.drop isInf.length) z.2.1
  let id ← stateId
  pointOpenMany x.length id first second z.2.2 k.2

end Verif.Rep3.Curve
