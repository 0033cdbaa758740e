import Verif.Yao.Circ

/-!
# The predefined circuits

Model of `GarbledCircuits`, `/repo/mpc-core/src/protocols/rep3/yao/circuits.rs`.  A `BinaryBundle` or a
slice of wires is a list, least significant wire first.  `debug_assert!`s are not modelled.
-/

namespace Verif.Yao

/-- `GCUtils::uint_to_bits` and `uint_to_bits_as_u16`, `/repo/mpc-core/src/protocols/rep3/yao.rs:237-285`:
the lowest `n` bits of `v`, least significant first. -/
def uintToBits (v : Nat) : Nat → List Bool
  | 0 => []
  | n + 1 => (v % 2 == 1) :: uintToBits (v / 2) n

namespace Circ

variable {I : Type}

/-- `if bit { g.const_one()? } else { g.const_zero()? }`,
`/repo/mpc-core/src/protocols/rep3/yao/circuits.rs:61-66` and `525`. -/
def constBit (bit : Bool) : Circ I I := if bit then constOne else constZero

/-- `/repo/mpc-core/src/protocols/rep3/yao/circuits.rs:53-70` -/
def constantBundle (c size : Nat) : Circ I (List I) :=
  (uintToBits c size).mapM constBit

/-- `/repo/mpc-core/src/protocols/rep3/yao/circuits.rs:71-94` -/
def fullAdderConst (a : I) (b : Bool) (c : I) : Circ I (I × I) :=
  if b then do
    let z1 ← gNot a
    let s ← gXor z1 c
    let z3 ← gXor a c
    let z4 ← gAnd z1 z3
    let c ← gXor z4 a
    pure (s, c)
  else do
    let s ← gXor a c
    let z4 ← gAnd a s
    let c ← gXor z4 a
    pure (s, c)

/-- `/repo/mpc-core/src/protocols/rep3/yao/circuits.rs:96-104` -/
def halfAdder (a b : I) : Circ I (I × I) := do
  let s ← gXor a b
  let c ← gAnd a b
  pure (s, c)

/-- `/repo/mpc-core/src/protocols/rep3/yao/circuits.rs:106-114` -/
def halfAdderConst (a : I) (b : Bool) : Circ I (I × I) := do
  let s ← if b then gNot a else pure a
  pure (s, a)

/-- `/repo/mpc-core/src/protocols/rep3/yao/circuits.rs:117-128` -/
def fullAdderCarry (a b c : I) : Circ I I := do
  let z1 ← gXor a b
  let z3 ← gXor a c
  let z4 ← gAnd z1 z3
  gXor z4 a

/-- `/repo/mpc-core/src/protocols/rep3/yao/circuits.rs:130-142` -/
def fullAdder (a b c : I) : Circ I (I × I) := do
  let z1 ← gXor a b
  let s ← gXor z1 c
  let z3 ← gXor a c
  let z4 ← gAnd z1 z3
  let c ← gXor z4 a
  pure (s, c)

/-- `/repo/mpc-core/src/protocols/rep3/yao/circuits.rs:145-156` -/
def fullAdderCinSet (a b : I) : Circ I (I × I) := do
  let z1 ← gXor a b
  let s ← gNot z1
  let z3 ← gNot a
  let z4 ← gAnd z1 z3
  let c ← gXor z4 a
  pure (s, c)

/-- `/repo/mpc-core/src/protocols/rep3/yao/circuits.rs:159-170` -/
def fullAdderConstCinSet (a : I) (b : Bool) : Circ I (I × I) :=
  if b then do
    let one ← constOne
    pure (a, one)
  else do
    let s ← gNot a
    pure (s, a)

/-- `/repo/mpc-core/src/protocols/rep3/yao/circuits.rs:173-183` -/
def fullAdderCarryCinSet (a b : I) : Circ I I := do
  let z1 ← gXor a b
  let z3 ← gNot a
  let z4 ← gAnd z1 z3
  gXor z4 a

/-- The loop body `full_adder(g, x, y, &c)` over pairs. -/
def addPairs (c : I) (xys : List (I × I)) : Circ I (List I × I) :=
  scan (fun c xy => fullAdder xy.1 xy.2 c) c xys

/-- The loop body `full_adder_const(g, y, false, &c)`. -/
def addZeros (c : I) (ys : List I) : Circ I (List I × I) :=
  scan (fun c y => fullAdderConst y false c) c ys

/-- `/repo/mpc-core/src/protocols/rep3/yao/circuits.rs:187-206` -/
def binAddition : List I → List I → Circ I (List I × I)
  | x :: xs, y :: ys => do
    let (s, c) ← halfAdder x y
    let (ss, c) ← addPairs c (xs.zip ys)
    pure (s :: ss, c)
  | _, _ => oob

/-- `/repo/mpc-core/src/protocols/rep3/yao/circuits.rs:209-237`.  For two empty slices the code panics in
`xs[0]`, for one empty slice too. -/
def binAdditionNoCarry : List I → List I → Circ I (List I)
  | [x], y :: _ => do
    let s ← gXor x y
    pure [s]
  | x :: xs, y :: ys => do
    let (s, c) ← halfAdder x y
    let (ss, c) ← addPairs c ((xs.zip ys).take (xs.length - 1))
    let z1 ← gXor ((x :: xs).getLast (by simp)) ((y :: ys).getLast (by simp))
    let t ← gXor z1 c
    pure (s :: ss ++ [t])
  | _, _ => oob

/-- `if bit { g.negate(x)? } else { x.clone() }`,
`/repo/mpc-core/src/protocols/rep3/yao/circuits.rs:267-271` -/
def negateIf (bit : Bool) (x : I) : Circ I I := if bit then gNot x else pure x

/-- `/repo/mpc-core/src/protocols/rep3/yao/circuits.rs:240-276` -/
def binAdditionConstantNoCarry : List I → List Bool → Circ I (List I)
  | [x], y :: _ =>
    if y then do
      let s ← gNot x
      pure [s]
    else pure [x]
  | x :: xs, y :: ys => do
    let (s, c) ← halfAdderConst x y
    let (ss, c) ← scan (fun c (xy : I × Bool) => fullAdderConst xy.1 xy.2 c) c
      ((xs.zip ys).take (xs.length - 1))
    let z1 ← negateIf ((y :: ys).getLast (by simp)) ((x :: xs).getLast (by simp))
    let t ← gXor z1 c
    pure (s :: ss ++ [t])
  | _, _ => oob

/-- The loop body `let y = g.negate(y)?; full_adder(g, x, &y, &c)` over pairs. -/
def subPairs (c : I) (xys : List (I × I)) : Circ I (List I × I) :=
  scan (fun c xy => do
    let y ← gNot xy.2
    fullAdder xy.1 y c) c xys

/-- `/repo/mpc-core/src/protocols/rep3/yao/circuits.rs:281-303` -/
def binSubtraction : List I → List I → Circ I (List I × I)
  | x :: xs, y :: ys => do
    let y0 ← gNot y
    let (s, c) ← fullAdderCinSet x y0
    let (ss, c) ← subPairs c (xs.zip ys)
    pure (s :: ss, c)
  | _, _ => oob

/-- The loop body of a full adder with `a = 0` on the negated `y`,
`/repo/mpc-core/src/protocols/rep3/yao/circuits.rs:327-333` and `395-401`. -/
def subFromZeros (c : I) (ys : List I) : Circ I (List I × I) :=
  scan (fun c y => do
    let y ← gNot y
    let s ← gXor y c
    let c ← gAnd y c
    pure (s, c)) c ys

/-- `/repo/mpc-core/src/protocols/rep3/yao/circuits.rs:307-335` -/
def binSubtractionPartial : List I → List I → Circ I (List I × I)
  | x :: xs, y :: ys => do
    let y0 ← gNot y
    let (s, c) ← fullAdderCinSet x y0
    let (ss, c) ← subPairs c (xs.zip (ys.take xs.length))
    if ys.length < xs.length then oob
    else do
      let (ts, c) ← subFromZeros c (ys.drop xs.length)
      pure (s :: (ss ++ ts), c)
  | _, _ => oob

/-- `/repo/mpc-core/src/protocols/rep3/yao/circuits.rs:339-369` -/
def binSubtractionPartialByConstant : List I → List Bool → Circ I (List I × I)
  | x :: xs, y :: ys => do
    let (s, c) ← fullAdderConstCinSet x (!y)
    let (ss, c) ← scan (fun c (xy : I × Bool) => fullAdderConst xy.1 (!xy.2) c) c
      (xs.zip (ys.take xs.length))
    if ys.length < xs.length then oob
    else do
      let (ts, c) ← scan (fun c (y : Bool) =>
        if y then do
          let z ← constZero
          pure (c, z)
        else do
          let s ← gNot c
          pure (s, c)) c (ys.drop xs.length)
      pure (s :: (ss ++ ts), c)
  | _, _ => oob

/-- `/repo/mpc-core/src/protocols/rep3/yao/circuits.rs:373-403` -/
def binSubtractionPartialFromConstant : List Bool → List I → Circ I (List I × I)
  | x :: xs, y :: ys => do
    let y0 ← gNot y
    let (s, c) ← fullAdderConstCinSet y0 x
    let (ss, c) ← scan (fun c (xy : Bool × I) => do
      let y ← gNot xy.2
      fullAdderConst y xy.1 c) c (xs.zip (ys.take xs.length))
    if xs.length < ys.length then do
      let (ts, c) ← subFromZeros c (ys.drop xs.length)
      pure (s :: (ss ++ ts), c)
    else pure (s :: ss, c)
  | _, _ => oob

/-- `/repo/mpc-core/src/protocols/rep3/yao/circuits.rs:407-424` -/
def binSubtractionGetCarryOnly : List I → List I → Circ I I
  | x :: xs, y :: ys => do
    let y0 ← gNot y
    let c ← fullAdderCarryCinSet x y0
    (xs.zip ys).foldlM (fun c xy => do
      let y ← gNot xy.2
      fullAdderCarry xy.1 y c) c
  | _, _ => oob

/-- The loop of `bin_mul_with_public`, `/repo/mpc-core/src/protocols/rep3/yao/circuits.rs:440-453`, from
position `i` on. -/
def binMulLoop (zero : I) (lhs : List I) : Nat → List I → List Bool → Circ I (List I)
  | _, sum, [] => pure sum
  | i, sum, item :: rhs => do
    let mul := if item then lhs else List.replicate lhs.length zero
    let (sum, c) ← binAddition sum (List.replicate i zero ++ mul)
    binMulLoop zero lhs (i + 1) (sum ++ [c]) rhs

/-- `/repo/mpc-core/src/protocols/rep3/yao/circuits.rs:428-456` -/
def binMulWithPublic (lhs : List I) (rhs : List Bool) : Circ I (List I) := do
  let zero ← constZero
  match rhs with
  | [] => oob
  | r :: rhs =>
    let sum := if r then lhs else List.replicate lhs.length zero
    binMulLoop zero lhs 1 (sum ++ [zero]) rhs

/-- `/repo/mpc-core/src/protocols/rep3/yao/circuits.rs:547-557` -/
def binMultiplex (b : I) (x y : List I) : Circ I (List I) :=
  (x.zip y).mapM fun (xy : I × I) => gMux b xy.1 xy.2

/-- The choice between a public bit and a wire, `/repo/mpc-core/src/protocols/rep3/yao/circuits.rs:569-574`
and `530-535`. -/
def muxConst (b : I) (x : Bool) (y : I) : Circ I I :=
  if x then do
    let bnot ← gNot b
    gOr bnot y
  else gAnd b y

/-- `/repo/mpc-core/src/protocols/rep3/yao/circuits.rs:560-577` -/
def binMultiplexConst (b : I) (x : List Bool) (y : List I) : Circ I (List I) :=
  (x.zip y).mapM fun (xy : Bool × I) => muxConst b xy.1 xy.2

/-- `if acc.len() == n { acc.pop(); } acc.insert(0, x)`,
`/repo/mpc-core/src/protocols/rep3/yao/circuits.rs:468-471`. -/
def shiftIn (n : Nat) (x : I) (acc : List I) : List I :=
  x :: (if acc.length = n then acc.dropLast else acc)

/-- The loop of `bin_div`, over the dividend from the most significant wire; `sub` is the subtraction of
the divisor.  `/repo/mpc-core/src/protocols/rep3/yao/circuits.rs:467-477`. -/
def divLoop (n : Nat) (sub : List I → Circ I (List I × I)) : List I → List I → Circ I (List I)
  | _, [] => pure []
  | acc, x :: xs => do
    let acc := shiftIn n x acc
    let (res, cout) ← sub acc
    let acc ← binMultiplex cout acc res
    let qs ← divLoop n sub acc xs
    pure (cout :: qs)

/-- `/repo/mpc-core/src/protocols/rep3/yao/circuits.rs:460-480` -/
def binDiv (dividend divisor : List I) : Circ I (List I) := do
  let qs ← divLoop dividend.length (fun acc => binSubtractionPartial acc divisor) [] dividend.reverse
  pure qs.reverse

/-- `/repo/mpc-core/src/protocols/rep3/yao/circuits.rs:484-504` -/
def binDivByPublic (dividend : List I) (divisor : List Bool) : Circ I (List I) := do
  let qs ← divLoop dividend.length (fun acc => binSubtractionPartialByConstant acc divisor) []
    dividend.reverse
  pure qs.reverse

/-- The loop of `bin_div_by_shared`, `/repo/mpc-core/src/protocols/rep3/yao/circuits.rs:521-541` -/
def divSharedLoop (divisor : List I) : List I → List Bool → Circ I (List I)
  | _, [] => pure []
  | acc, x :: xs => do
    let x' ← constBit x
    let acc := shiftIn divisor.length x' acc
    let (res, cout) ← binSubtraction acc divisor
    match res with
    | [] => oob
    | r :: res => do
      let a0 ← muxConst cout x r
      let as ← binMultiplex cout acc.tail res
      let qs ← divSharedLoop divisor (a0 :: as) xs
      pure (cout :: qs)

/-- `/repo/mpc-core/src/protocols/rep3/yao/circuits.rs:508-544` -/
def binDivByShared (dividend : List Bool) (divisor : List I) : Circ I (List I) :=
  if divisor.length = 0 then fail (.panic "attempt to subtract with overflow")
  else match dividend.reverse with
  | [] => fail (.panic "called `Option::unwrap()` on a `None` value")
  | d :: ds => do
    let acc := d :: List.replicate (divisor.length - 1) false
    let (res, cout) ← binSubtractionPartialFromConstant acc divisor
    let acc ← binMultiplexConst cout acc res
    let qs ← divSharedLoop divisor acc ds
    pure (cout :: qs).reverse

/-- `sub_p`, `/repo/mpc-core/src/protocols/rep3/yao/circuits.rs:581-616`, for the modulus `p`.  The code
computes `2^(bitlen+1) - p` in the field's machine integers. -/
def subP (p : Nat) (wires : List I) (carry : I) : Circ I (List I × I) :=
  let bitlen := wires.length
  let pBits := uintToBits (2 ^ (bitlen + 1) - p) (bitlen + 1)
  match wires with
  | [] => oob
  | w :: ws => do
    let s ← gNot w
    let (ss, c) ← scan (fun c (ab : I × Bool) => fullAdderConst ab.1 ab.2 c) w (ws.zip pBits.tail)
    let z ← if pBits.getLastD false then gNot carry else pure carry
    let ov ← gXor z c
    pure (s :: ss, ov)

/-- `/repo/mpc-core/src/protocols/rep3/yao/circuits.rs:618-635` -/
def subPAndMux (p : Nat) (wires : List I) (carry : I) (outlen : Nat) : Circ I (List I) := do
  let (subtracted, ov) ← subP p wires carry
  ((subtracted.zip wires).take outlen).mapM fun (sa : I × I) => gMux ov sa.1 sa.2

/-- `adder_mod_p_with_output_size`, `/repo/mpc-core/src/protocols/rep3/yao/circuits.rs:638-653` -/
def adderModPOut (p : Nat) (wiresA wiresB : List I) (outlen : Nat) : Circ I (List I) := do
  let (added, carry) ← binAddition wiresA wiresB
  subPAndMux p added carry outlen

/-- `/repo/mpc-core/src/protocols/rep3/yao/circuits.rs:656-670` -/
def adderModP (p : Nat) (wiresA wiresB : List I) : Circ I (List I) :=
  adderModPOut p wiresA wiresB wiresA.length

/-- `wires.chunks(n)`; `n = 0` panics in the code. -/
def chunks {α : Type} (n : Nat) (l : List α) : List (List α) :=
  if h : n = 0 ∨ l = [] then [] else l.take n :: chunks n (l.drop n)
termination_by l.length
decreasing_by
  have : 0 < l.length := List.length_pos_iff.2 fun e => h (.inr e)
  simp only [List.length_drop]
  omega

/-- `adder_mod_p_many`, `/repo/mpc-core/src/protocols/rep3/yao/circuits.rs:673-689`; `w` is
`F::MODULUS_BIT_SIZE`. -/
def adderModPMany (p w : Nat) (wiresA wiresB : List I) : Circ I (List (List I)) :=
  ((chunks w wiresA).zip (chunks w wiresB)).mapM fun (ab : List I × List I) => adderModPOut p ab.1 ab.2 w

/-- `/repo/mpc-core/src/protocols/rep3/yao/circuits.rs:692-700` -/
def adderMod2k (wiresA wiresB : List I) : Circ I (List I) := binAdditionNoCarry wiresA wiresB

/-- `xor_many`, `/repo/mpc-core/src/protocols/rep3/yao/circuits.rs:703-717`, and `xor_many_as_wires`,
`/repo/mpc-core/src/protocols/rep3/yao/circuits.rs:719-734` -/
def xorMany (wiresA wiresB : List I) : Circ I (List I) :=
  (wiresA.zip wiresB).mapM fun (ab : I × I) => gXor ab.1 ab.2

/-- `/repo/mpc-core/src/protocols/rep3/yao/circuits.rs:736-773` -/
def composeFieldElement (p nBits : Nat) (fieldWires randWires : List I) : Circ I (List I) :=
  if fieldWires = [] then pure randWires
  else do
    let (added, c) ← binAddition fieldWires randWires
    let (added', c) ← addZeros c (randWires.drop fieldWires.length)
    subPAndMux p (added ++ added') c nBits

/-- `/repo/mpc-core/src/protocols/rep3/yao/circuits.rs:1119-1126` -/
def unsignedGe (a b : List I) : Circ I I := binSubtractionGetCarryOnly a b

/-- `/repo/mpc-core/src/protocols/rep3/yao/circuits.rs:1128-1135` -/
def unsignedLt (a b : List I) : Circ I I := do
  let ge ← unsignedGe a b
  gNot ge

/-- `/repo/mpc-core/src/protocols/rep3/yao/circuits.rs:1138-1144` -/
def unsignedLe (a b : List I) : Circ I I := unsignedGe b a

/-- `/repo/mpc-core/src/protocols/rep3/yao/circuits.rs:1146-1152` -/
def unsignedGt (a b : List I) : Circ I I := unsignedLt b a

end Circ

end Verif.Yao
