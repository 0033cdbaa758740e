import Verif.Yao.Circuits

/-!
# Circuits on additively shared inputs

Models the circuits of `/repo/mpc-core/src/protocols/rep3/yao/circuits.rs` that add the two parts
`wires_a`, `wires_b` of their inputs, compute, and add `wires_c` to the outputs: casts, divisions,
decompositions and slices.  The `debug_assert`s are not modelled.
-/

namespace Verif.Yao.Circ

variable {I : Type}

/-! ### Loops over chunks -/

/-- `chunks(0)` panics. -/
def chunkSizeZero {α : Type} : Circ I α := fail (.panic "chunk size must be non-zero")

/-- The loops `izip!(wires_a.chunks(n), wires_b.chunks(n), wires_c.chunks(m))` with `results.extend`, for
instance `/repo/mpc-core/src/protocols/rep3/yao/circuits.rs:1293-1300`. -/
def overChunks (n m : Nat) (f : List I → List I → List I → Circ I (List I)) (a b c : List I) :
    Circ I (List I) :=
  if n = 0 ∨ m = 0 then chunkSizeZero else do
  let rs ← ((chunks n a).zip ((chunks n b).zip (chunks m c))).mapM fun (x : List I × List I × List I) =>
    f x.1 x.2.1 x.2.2
  pure rs.flatten

/-- The same with public bits, `izip!(wires_x1.chunks(n), wires_x2.chunks(n), public.chunks(n),
wires_c.chunks(n))`, for instance `/repo/mpc-core/src/protocols/rep3/yao/circuits.rs:2020-2034`. -/
def overChunksPublic (n : Nat) (f : List I → List I → List Bool → List I → Circ I (List I)) (a b : List I)
    (v : List Bool) (c : List I) : Circ I (List I) :=
  if n = 0 then chunkSizeZero else do
  let rs ← ((chunks n a).zip ((chunks n b).zip ((chunks n v).zip (chunks n c)))).mapM
    fun (x : List I × List I × List Bool × List I) => f x.1 x.2.1 x.2.2.1 x.2.2.2
  pure rs.flatten

/-- The same with both operands in `a` and in `b`, the first operands in the first half,
`/repo/mpc-core/src/protocols/rep3/yao/circuits.rs:1785-1808`, `2090-2108`. -/
def overHalves (n : Nat) (f : List I → List I → List I → List I → List I → Circ I (List I)) (a b c : List I) :
    Circ I (List I) :=
  if n = 0 then chunkSizeZero else do
  let h := a.length / 2
  if b.length < h then oob else do
  let rs ← ((chunks n (a.take h)).zip ((chunks n (b.take h)).zip ((chunks n (a.drop h)).zip
      ((chunks n (b.drop h)).zip (chunks n c))))).mapM
    fun (x : List I × List I × List I × List I × List I) => f x.1 x.2.1 x.2.2.1 x.2.2.2.1 x.2.2.2.2
  pure rs.flatten

/-! ### Addition of the output mask in a ring -/

/-- The last part of `ring_to_ring_upcast` and `ring_div_power_2`: add `xs` to the longer `ys`,
`/repo/mpc-core/src/protocols/rep3/yao/circuits.rs:1370-1394`, `1451-1473`.  A half adder on the first wires
and full adders on the others are `binAddition`. -/
def composeShort (xs ys : List I) : Circ I (List I) :=
  if hy : ys = [] then oob else do
  let (ss, c) ← binAddition xs ys
  let (ts, c) ← addZeros c ((ys.take (ys.length - 1)).drop xs.length)
  let t ← gXor (ys.getLast hy) c
  pure (ss ++ ts ++ [t])

/-- The last part of the ring divisions: add the quotient to `ys`,
`/repo/mpc-core/src/protocols/rep3/yao/circuits.rs:1526-1544`, `1562-1580`, `1597-1615`. -/
def composeQuotient (xs ys : List I) : Circ I (List I) := do
  let (ss, c) ← binAddition xs ys
  let (ts, _) ← addZeros c ((ys.take (ys.length - 1)).drop xs.length)
  pure (ss ++ ts)

/-- The last bit of a sum, `/repo/mpc-core/src/protocols/rep3/yao/circuits.rs:828-834`. -/
def composeLast (xs ys : List I) (hx : xs ≠ []) (hy : ys ≠ []) (c : I) : Circ I I :=
  if xs.length = ys.length then do
    let z1 ← gXor (xs.getLast hx) (ys.getLast hy)
    gXor z1 c
  else gXor (ys.getLast hy) c

/-- The body of the loop of `decompose_field_element_to_rings`: add the chunk `xs` to `ys`,
`/repo/mpc-core/src/protocols/rep3/yao/circuits.rs:803-836`. -/
def composeChunk (xs ys : List I) : Circ I (List I) :=
  if h : xs = [] ∨ ys = [] then oob else
  if ys.length = 1 then do
    let (ss, _) ← binAddition (xs.take 1) ys
    pure ss
  else do
    let (ss, c) ← binAddition (xs.take (ys.length - 1)) ys
    let (ts, c) ← addZeros c ((ys.take (ys.length - 1)).drop xs.length)
    let t ← composeLast xs ys (fun e => h (.inl e)) (fun e => h (.inr e)) c
    pure (ss ++ ts ++ [t])

/-! ### Casts -/

/-- `/repo/mpc-core/src/protocols/rep3/yao/circuits.rs:1254-1270` -/
def fieldToRing (p : Nat) (a b c : List I) : Circ I (List I) := do
  let bits ← adderModPOut p a b c.length
  binAdditionNoCarry bits c

/-- `/repo/mpc-core/src/protocols/rep3/yao/circuits.rs:1273-1302`; `n` is `F::MODULUS_BIT_SIZE`, `k` the
output bit length. -/
def fieldToRingMany (p n k : Nat) (a b c : List I) : Circ I (List I) := overChunks n k (fieldToRing p) a b c

/-- `/repo/mpc-core/src/protocols/rep3/yao/circuits.rs:1305-1319` -/
def ringToField (p n : Nat) (a b c : List I) : Circ I (List I) := do
  let bits ← binAdditionNoCarry a b
  composeFieldElement p n bits c

/-- `/repo/mpc-core/src/protocols/rep3/yao/circuits.rs:1322-1351` -/
def ringToFieldMany (p n k : Nat) (a b c : List I) : Circ I (List I) := overChunks k n (ringToField p n) a b c

/-- `/repo/mpc-core/src/protocols/rep3/yao/circuits.rs:1354-1395` -/
def ringToRingUpcast (a b c : List I) : Circ I (List I) := do
  let bits ← binAdditionNoCarry a b
  composeShort bits c

/-- `/repo/mpc-core/src/protocols/rep3/yao/circuits.rs:1398-1427` -/
def ringToRingUpcastMany (k l : Nat) (a b c : List I) : Circ I (List I) := overChunks k l ringToRingUpcast a b c

/-! ### Divisions -/

/-- `/repo/mpc-core/src/protocols/rep3/yao/circuits.rs:1430-1474` -/
def ringDivPower2 (divisorBit : Nat) (a b c : List I) : Circ I (List I) := do
  let bits ← binAdditionNoCarry a b
  composeShort (bits.drop divisorBit) c

/-- `/repo/mpc-core/src/protocols/rep3/yao/circuits.rs:1700-1735` -/
def ringDivPower2Many (k divisorBit : Nat) (a b c : List I) : Circ I (List I) :=
  overChunks k k (ringDivPower2 divisorBit) a b c

/-- `/repo/mpc-core/src/protocols/rep3/yao/circuits.rs:1477-1508`; `n` is `F::MODULUS_BIT_SIZE`. -/
def fieldIntDivPower2 (p n divisorBit : Nat) (a b c : List I) : Circ I (List I) := do
  if a.length ≠ n then fail (.panic "assertion failed: input_bitlen == n_bits") else do
  let (added, carry) ← binAddition a b
  let (subtracted, ov) ← subP p added carry
  let bits ← ((subtracted.zip added).drop divisorBit).mapM fun (sa : I × I) => gMux ov sa.1 sa.2
  composeFieldElement p n bits c

/-- `/repo/mpc-core/src/protocols/rep3/yao/circuits.rs:1738-1774` -/
def fieldIntDivPower2Many (p n divisorBit : Nat) (a b c : List I) : Circ I (List I) :=
  overChunks n n (fieldIntDivPower2 p n divisorBit) a b c

/-- `/repo/mpc-core/src/protocols/rep3/yao/circuits.rs:1511-1545` -/
def ringDiv (x1 x2 y1 y2 c : List I) : Circ I (List I) := do
  let dividend ← binAdditionNoCarry x1 x2
  let divisor ← binAdditionNoCarry y1 y2
  let quotient ← binDiv dividend divisor
  composeQuotient quotient c

/-- `/repo/mpc-core/src/protocols/rep3/yao/circuits.rs:1777-1810` -/
def ringDivMany (k : Nat) (a b c : List I) : Circ I (List I) := overHalves k ringDiv a b c

/-- `/repo/mpc-core/src/protocols/rep3/yao/circuits.rs:1548-1580` -/
def ringDivByPublic (x1 x2 : List I) (divisor : List Bool) (c : List I) : Circ I (List I) := do
  let dividend ← binAdditionNoCarry x1 x2
  let quotient ← binDivByPublic dividend divisor
  composeQuotient quotient c

/-- `/repo/mpc-core/src/protocols/rep3/yao/circuits.rs:2003-2036` -/
def ringDivByPublicMany (k : Nat) (divisor : List Bool) (a b c : List I) : Circ I (List I) :=
  overChunksPublic k ringDivByPublic a b divisor c

/-- `/repo/mpc-core/src/protocols/rep3/yao/circuits.rs:1583-1615` -/
def ringDivByShared (x1 x2 : List I) (dividend : List Bool) (c : List I) : Circ I (List I) := do
  let divisor ← binAdditionNoCarry x1 x2
  let quotient ← binDivByShared dividend divisor
  composeQuotient quotient c

/-- `/repo/mpc-core/src/protocols/rep3/yao/circuits.rs:2039-2072` -/
def ringDivBySharedMany (k : Nat) (dividend : List Bool) (a b c : List I) : Circ I (List I) :=
  overChunksPublic k ringDivByShared a b dividend c

/-- `/repo/mpc-core/src/protocols/rep3/yao/circuits.rs:1618-1645`; the assertion is on the argument
`input_bitlen`, which is `F::MODULUS_BIT_SIZE` at the only call. -/
def fieldIntDiv (p n : Nat) (x1 x2 y1 y2 c : List I) : Circ I (List I) := do
  let added1 ← adderModPOut p x1 x2 x1.length
  let added2 ← adderModPOut p y1 y2 x1.length
  let quotient ← binDiv added1 added2
  composeFieldElement p n quotient c

/-- `/repo/mpc-core/src/protocols/rep3/yao/circuits.rs:2075-2111` -/
def fieldIntDivMany (p n : Nat) (a b c : List I) : Circ I (List I) := overHalves n (fieldIntDiv p n) a b c

/-- `/repo/mpc-core/src/protocols/rep3/yao/circuits.rs:1648-1671` -/
def fieldIntDivByPublic (p n : Nat) (x1 x2 : List I) (divisor : List Bool) (c : List I) : Circ I (List I) := do
  let added1 ← adderModPOut p x1 x2 x1.length
  let quotient ← binDivByPublic added1 divisor
  composeFieldElement p n quotient c

/-- `/repo/mpc-core/src/protocols/rep3/yao/circuits.rs:2114-2150` -/
def fieldIntDivByPublicMany (p n : Nat) (divisor : List Bool) (a b c : List I) : Circ I (List I) :=
  overChunksPublic n (fieldIntDivByPublic p n) a b divisor c

/-- `/repo/mpc-core/src/protocols/rep3/yao/circuits.rs:1674-1697` -/
def fieldIntDivByShared (p n : Nat) (x1 x2 : List I) (dividend : List Bool) (c : List I) :
    Circ I (List I) := do
  let added1 ← adderModPOut p x1 x2 x1.length
  let quotient ← binDivByShared dividend added1
  composeFieldElement p n quotient c

/-- `/repo/mpc-core/src/protocols/rep3/yao/circuits.rs:2153-2189` -/
def fieldIntDivBySharedMany (p n : Nat) (dividend : List Bool) (a b c : List I) : Circ I (List I) :=
  overChunksPublic n (fieldIntDivByShared p n) a b dividend c

/-- The quotient and the remainder of a division by a public number,
`/repo/mpc-core/src/protocols/rep3/yao/circuits.rs:1972-1985`, `1881-1895`.  `km[..dividend.len()]` is in
range, the product has more wires. -/
def ringDivRem (x1 x2 : List I) (divisor : List Bool) : Circ I (List I × List I) := do
  let dividend ← binAdditionNoCarry x1 x2
  let quotient ← binDivByPublic dividend divisor
  let km ← binMulWithPublic quotient divisor
  let (remainder, _) ← binSubtraction dividend (km.take dividend.length)
  pure (quotient, remainder)

/-- Compose chunks with the masks of `wires_c` in order: `rands.next().unwrap()` panics when there are not
enough.  `/repo/mpc-core/src/protocols/rep3/yao/circuits.rs:1987-1999` -/
def composeAll (p n : Nat) : List (List I) → List (List I) → Circ I (List I)
  | [], _ => pure []
  | _ :: _, [] => fail (.panic "called `Option::unwrap()` on a `None` value")
  | x :: xs, r :: rs => do
    let y ← composeFieldElement p n x r
    let ys ← composeAll p n xs rs
    pure (y ++ ys)

/-- `/repo/mpc-core/src/protocols/rep3/yao/circuits.rs:1960-2000` -/
def ringDivByPublicToLimbs (p n : Nat) (divisor : List Bool) (limbSize numLimbs : Nat) (x1 x2 c : List I) :
    Circ I (List I) := do
  let (quotient, remainder) ← ringDivRem x1 x2 divisor
  composeAll p n ((chunks limbSize quotient).take numLimbs ++ (chunks limbSize remainder).take numLimbs)
    (chunks n c)

/-- `/repo/mpc-core/src/protocols/rep3/yao/circuits.rs:1915-1957` -/
def ringDivByPublicToLimbsMany (p n k : Nat) (divisor : List Bool) (limbSize numLimbs : Nat)
    (a b c : List I) : Circ I (List I) :=
  overChunks k (2 * n * numLimbs) (ringDivByPublicToLimbs p n divisor limbSize numLimbs) a b c

/-! ### Decompositions -/

/-- The loops `izip!(input_bits.chunks(decompose_bitlen), wires_c.chunks(n))` with a composition,
`/repo/mpc-core/src/protocols/rep3/yao/circuits.rs:798-838`, `915-921`, `992-998`. -/
def composeChunks (n m : Nat) (f : List I → List I → Circ I (List I)) (bits c : List I) : Circ I (List I) :=
  if n = 0 ∨ m = 0 then chunkSizeZero else do
  let rs ← ((chunks n bits).zip (chunks m c)).mapM fun (x : List I × List I) => f x.1 x.2
  pure rs.flatten

/-- `/repo/mpc-core/src/protocols/rep3/yao/circuits.rs:776-841` -/
def decomposeToRings (p numDecomps decomposeBitlen outputBitlen : Nat) (a b c : List I) : Circ I (List I) := do
  let bits ← adderModPOut p a b (decomposeBitlen * numDecomps)
  composeChunks decomposeBitlen outputBitlen composeChunk bits c

/-- `/repo/mpc-core/src/protocols/rep3/yao/circuits.rs:844-887` -/
def decomposeToRingsMany (p n numDecomps decomposeBitlen outputBitlen : Nat) (a b c : List I) :
    Circ I (List I) :=
  overChunks n (outputBitlen * numDecomps) (decomposeToRings p numDecomps decomposeBitlen outputBitlen) a b c

/-- `/repo/mpc-core/src/protocols/rep3/yao/circuits.rs:890-924`; `input_bitlen` is the length of the wires
`wires_a`. -/
def decomposeField (p n decomposeBitlen total : Nat) (a b c : List I) : Circ I (List I) := do
  let bits ← adderModPOut p a b total
  composeChunks decomposeBitlen a.length (composeFieldElement p n) bits c

/-- `total.div_ceil(size)` -/
def divCeil (total size : Nat) : Nat := (total + size - 1) / size

/-- `/repo/mpc-core/src/protocols/rep3/yao/circuits.rs:927-963` -/
def decomposeFieldMany (p n decomposeBitlen total : Nat) (a b c : List I) : Circ I (List I) :=
  overChunks n (n * divCeil total decomposeBitlen) (decomposeField p n decomposeBitlen total) a b c

/-- `/repo/mpc-core/src/protocols/rep3/yao/circuits.rs:1050-1079` -/
def sliceField (p n lo mid bitsize : Nat) (a b c : List I) : Circ I (List I) := do
  let bits ← adderModPOut p a b bitsize
  if mid < lo ∨ bits.length < mid then oob else do
  match chunks a.length c with
  | r1 :: r2 :: _ => do
    let l ← composeFieldElement p n ((bits.take mid).drop lo) r1
    let h ← composeFieldElement p n (bits.drop mid) r2
    pure (l ++ h)
  | _ => fail (.panic "called `Option::unwrap()` on a `None` value")

/-- `/repo/mpc-core/src/protocols/rep3/yao/circuits.rs:1082-1117` -/
def sliceFieldMany (p n lo mid bitsize : Nat) (a b c : List I) : Circ I (List I) :=
  overChunks n (n * 2) (sliceField p n lo mid bitsize) a b c

end Verif.Yao.Circ
