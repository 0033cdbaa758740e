import Verif.Yao.Protocol
import Verif.Rep3.Arith
import Mathlib.Data.BitVec
import Verif.Yao.ArithCircuits

/-!
# Computing on additive sharings with one garbled circuit

Models the functions of `/repo/mpc-core/src/protocols/rep3/yao.rs` and
`/repo/mpc-core/src/protocols/rep3_ring/yao.rs` that share their inputs on wires, evaluate a circuit that adds a
mask to its outputs, and open the outputs to parties 0 and 1; and the conversions of
`/repo/mpc-core/src/protocols/rep3_ring/conversion.rs` through garbled circuits.
The `debug_assert`s are not modelled.
-/

namespace Verif.Yao

open PartyID Verif.Rep3
open MPC (bail panicWith)

variable {R M : Type} {p k w : Nat} [YaoRng R] [YaoNet M]

section Blueprint

variable {α β : Type} [Add α] [AddCommGroup β] [Sample R β]

omit [YaoRng R] [YaoNet M] [Sample R β] [AddCommGroup β] in
/-- `for (res, x1) in izip!(res.iter_mut(), x1.chunks(n)) { res.a = bits_to_…(x1)?; }`, where `set` is the
assignment.  `/repo/mpc-core/src/protocols/rep3/yao.rs:963-965` -/
def composeOutputs (ofBits : List Bool → Except Err β) (set : Share β → β → Share β) :
    List (Share β) → List (List Bool) → Except Err (List (Share β))
  | [], _ => .ok []
  | r :: rs, [] => .ok (r :: rs)
  | r :: rs, c :: cs => do
    let v ← ofBits c
    let ts ← composeOutputs ofBits set rs cs
    pure (set r v :: ts)

omit [YaoRng R] [YaoNet M] [Sample R β] [AddCommGroup β] in
/-- What the parties do with the opened outputs, `/repo/mpc-core/src/protocols/rep3/yao.rs:962-965`,
`985-990`, `1012-1016`. -/
def composeFinish (n : Nat) (ofBits : List Bool → Except Err β) (res : List (Share β))
    (x1 : Option (List Bool)) : Rep3M R M (List (Share β)) := do
  let id ← stateId
  match id, x1 with
  | ID0, some x1 => orFail (composeOutputs ofBits (fun s v => { s with a := v }) res (Circ.chunks n x1))
  | ID1, some x1 => orFail (composeOutputs ofBits (fun s v => { s with b := v }) res (Circ.chunks n x1))
  | ID2, none => pure res
  | ID2, some _ => bail "Unexpected output received"
  | _, none => bail "No output received"

/-- The masks of the outputs, on wires, with the shares so far: `/repo/mpc-core/src/protocols/rep3/yao.rs:945-954`,
`969-976`, `993-1007`. -/
def composeInputs (W : WireType β) (n : Nat) (delta : Option Label) :
    Rep3M R M (List (Share β) × List Label) := do
  let id ← stateId
  let ks ← (List.replicate n ()).mapM fun (_ : Unit) => composeKeys (α := β) id
  match id with
  | ID2 => do
    let x23 ← inputId2Many W (some (ks.map Prod.fst)) delta n
    pure (ks.map Prod.snd, x23)
  | _ => do
    let x23 ← inputId2Many W none none n
    pure (ks.map Prod.snd, x23)

/-- `decompose_circuit_compose_blueprint!`, `/repo/mpc-core/src/protocols/rep3/yao.rs:932-1021` for fields,
`/repo/mpc-core/src/protocols/rep3_ring/yao.rs:576-663` for rings, and
`decompose_circuit_compose_to_fields_blueprint!`, `/repo/mpc-core/src/protocols/rep3_ring/yao.rs:665-752`.  The
bodies of `ring_to_field_many`, `field_to_ring_many` and `decompose_field_to_rings_many`
(`/repo/mpc-core/src/protocols/rep3_ring/yao.rs:385-469`, `480-574`, `1210-1326`) are the same.  `Wi` and `Wo`
are the types of the inputs and outputs, `ofBits` is `bits_to_field` or `bits_to_ring`, `n` is the number of
outputs. -/
def blueprint (Wi : WireType α) (Wo : WireType β) (ofBits : List Bool → Except Err β) (n : Nat)
    (circ : List Label → List Label → List Label → Circ Label (List Label)) (inputs : List (Share α)) :
    Rep3M R M (List (Share β)) := do
  let delta ← generateRandomGarblerDelta
  let (x01, x2) ← jointInputArithmeticAddedMany Wi inputs delta
  let (res, x23) ← composeInputs Wo n delta
  let x1 ← evalOpen01 delta (circ x01 x2 x23)
  composeFinish Wo.size ofBits res x1

omit [YaoRng R] [YaoNet M] [Sample R β] [AddCommGroup β] in
/-- `Ok(res[0])` -/
def first (res : List β) : Rep3M R M β :=
  match res with
  | r :: _ => pure r
  | [] => panicWith "index out of bounds"

end Blueprint

/-! ### Fields -/

section Field

variable [Sample R (ZMod p)] (w)

/-- `decompose_arithmetic_many`, `/repo/mpc-core/src/protocols/rep3/yao.rs:1193-1213`; `w` is `F::Uint::BITS`.
A chunk size of zero panics. -/
def decomposeArithmeticMany (inputs : List (Share (ZMod p))) (total size : Nat) :
    Rep3M R M (List (Share (ZMod p))) :=
  if size = 0 then panicWith "attempt to divide by zero" else
  blueprint (fieldType p) (fieldType p) (bitsToField w p) (Circ.divCeil total size * inputs.length)
    (Circ.decomposeFieldMany p (modBits p) size total) inputs

/-- `decompose_arithmetic`, `/repo/mpc-core/src/protocols/rep3/yao.rs:698-712` -/
def decomposeArithmetic (input : Share (ZMod p)) (total size : Nat) : Rep3M R M (List (Share (ZMod p))) :=
  decomposeArithmeticMany w [input] total size

/-- `slice_arithmetic_many`, `/repo/mpc-core/src/protocols/rep3/yao.rs:1240-1258` -/
def sliceArithmeticMany (inputs : List (Share (ZMod p))) (lo mid bitsize : Nat) :
    Rep3M R M (List (Share (ZMod p))) :=
  blueprint (fieldType p) (fieldType p) (bitsToField w p) (2 * inputs.length)
    (Circ.sliceFieldMany p (modBits p) lo mid bitsize) inputs

/-- `slice_arithmetic`, `/repo/mpc-core/src/protocols/rep3/yao.rs:735-744` -/
def sliceArithmetic (input : Share (ZMod p)) (lo mid bitsize : Nat) : Rep3M R M (List (Share (ZMod p))) :=
  sliceArithmeticMany w [input] lo mid bitsize

/-- `field_mod_power_2`, `/repo/mpc-core/src/protocols/rep3/yao.rs:747-757` -/
def fieldModPower2 (input : Share (ZMod p)) (modBit : Nat) : Rep3M R M (Share (ZMod p)) := do
  let decomposed ← decomposeArithmetic w input modBit modBit
  first decomposed

/-- `field_int_div_power_2_many`, `/repo/mpc-core/src/protocols/rep3/yao.rs:760-783` -/
def fieldIntDivPower2Many (inputs : List (Share (ZMod p))) (divisorBit : Nat) :
    Rep3M R M (List (Share (ZMod p))) :=
  if divisorBit = 0 then pure inputs
  else if divisorBit ≥ modBits p then pure (List.replicate inputs.length Share.zeroShare)
  else blueprint (fieldType p) (fieldType p) (bitsToField w p) inputs.length
    (Circ.fieldIntDivPower2Many p (modBits p) divisorBit) inputs

/-- `field_int_div_power_2`, `/repo/mpc-core/src/protocols/rep3/yao.rs:786-794` -/
def fieldIntDivPower2 (input : Share (ZMod p)) (divisorBit : Nat) : Rep3M R M (Share (ZMod p)) := do
  let res ← fieldIntDivPower2Many w [input] divisorBit
  first res

/-- `field_int_div_many`, `/repo/mpc-core/src/protocols/rep3/yao.rs:797-817` -/
def fieldIntDivMany (input1 input2 : List (Share (ZMod p))) : Rep3M R M (List (Share (ZMod p))) :=
  blueprint (fieldType p) (fieldType p) (bitsToField w p) input1.length (Circ.fieldIntDivMany p (modBits p))
    (input1 ++ input2)

/-- `field_int_div`, `/repo/mpc-core/src/protocols/rep3/yao.rs:820-828` -/
def fieldIntDiv (input1 input2 : Share (ZMod p)) : Rep3M R M (Share (ZMod p)) := do
  let res ← fieldIntDivMany w [input1] [input2]
  first res

/-- `field_int_div_by_public_many`, `/repo/mpc-core/src/protocols/rep3/yao.rs:831-853` -/
def fieldIntDivByPublicMany (input : List (Share (ZMod p))) (divisors : List (ZMod p)) :
    Rep3M R M (List (Share (ZMod p))) :=
  blueprint (fieldType p) (fieldType p) (bitsToField w p) input.length
    (Circ.fieldIntDivByPublicMany p (modBits p) (divisors.flatMap fieldBits)) input

/-- `field_int_div_by_public`, `/repo/mpc-core/src/protocols/rep3/yao.rs:856-864` -/
def fieldIntDivByPublic (input : Share (ZMod p)) (divisor : ZMod p) : Rep3M R M (Share (ZMod p)) := do
  let res ← fieldIntDivByPublicMany w [input] [divisor]
  first res

/-- `field_int_div_by_shared_many`, `/repo/mpc-core/src/protocols/rep3/yao.rs:867-889` -/
def fieldIntDivBySharedMany (input : List (ZMod p)) (divisors : List (Share (ZMod p))) :
    Rep3M R M (List (Share (ZMod p))) :=
  blueprint (fieldType p) (fieldType p) (bitsToField w p) input.length
    (Circ.fieldIntDivBySharedMany p (modBits p) (input.flatMap fieldBits)) divisors

/-- `field_int_div_by_shared`, `/repo/mpc-core/src/protocols/rep3/yao.rs:922-930` -/
def fieldIntDivByShared (input : ZMod p) (divisor : Share (ZMod p)) : Rep3M R M (Share (ZMod p)) := do
  let res ← fieldIntDivBySharedMany w [input] [divisor]
  first res

end Field

/-! ### Rings -/

section Ring

/-- `GCUtils::bits_to_ring`, `/repo/mpc-core/src/protocols/rep3_ring/yao.rs:28-45`; `res <<= 1; res |= bit`. -/
def bitsToRing (k : Nat) (bits : List Bool) : Except Err (BitVec k) :=
  if bits.length > k then .error (.err "Invalid number of bits")
  else .ok (bits.foldr (fun b res => (res <<< 1) ||| BitVec.ofNat k b.toNat) 0#k)

/-- `GCUtils::collapse_bundle_to_lsb_bits_as_ring`, `/repo/mpc-core/src/protocols/rep3_ring/yao.rs:77-93` -/
def collapseRing (k : Nat) (x : List Label) : Except Err (BitVec k) :=
  if x.length > k then .error (.err "Bit length exceeds K")
  else .ok (x.foldr (fun wire res => (res <<< 1) ||| BitVec.ofNat k wire.color.toNat) 0#k)

variable [Sample R (BitVec k)]

/-- `field_to_ring_many`, `/repo/mpc-core/src/protocols/rep3_ring/yao.rs:472-574` -/
def fieldToRingMany (inputs : List (Share (ZMod p))) : Rep3M R M (List (Share (BitVec k))) :=
  blueprint (fieldType p) (ringType k) (bitsToRing k) inputs.length (Circ.fieldToRingMany p (modBits p) k) inputs

omit [Sample R (BitVec k)] in
/-- The garbled circuit of `ring_to_field_many`, `/repo/mpc-core/src/protocols/rep3_ring/yao.rs:385-469` -/
def ringToFieldManyGc [Sample R (ZMod p)] (w : Nat) (inputs : List (Share (BitVec k))) :
    Rep3M R M (List (Share (ZMod p))) :=
  blueprint (ringType k) (fieldType p) (bitsToField w p) inputs.length (Circ.ringToFieldMany p (modBits p) k) inputs

omit [Sample R (BitVec k)] in
/-- The garbled circuit of `upcast_many`, `/repo/mpc-core/src/protocols/rep3_ring/yao.rs:896-908` -/
def upcastManyGc {l : Nat} [Sample R (BitVec l)] (inputs : List (Share (BitVec k))) :
    Rep3M R M (List (Share (BitVec l))) :=
  blueprint (ringType k) (ringType l) (bitsToRing l) inputs.length (Circ.ringToRingUpcastMany k l) inputs

/-- `ring_div_power_2_many`, `/repo/mpc-core/src/protocols/rep3_ring/yao.rs:911-938` -/
def ringDivPower2Many (inputs : List (Share (BitVec k))) (divisorBit : Nat) : Rep3M R M (List (Share (BitVec k))) :=
  if divisorBit = 0 then pure inputs
  else if divisorBit ≥ k then pure (List.replicate inputs.length Share.zeroShare)
  else blueprint (ringType k) (ringType k) (bitsToRing k) inputs.length (Circ.ringDivPower2Many k divisorBit) inputs

/-- `ring_div_power_2`, `/repo/mpc-core/src/protocols/rep3_ring/yao.rs:941-952` -/
def ringDivPower2 (input : Share (BitVec k)) (divisorBit : Nat) : Rep3M R M (Share (BitVec k)) := do
  let res ← ringDivPower2Many [input] divisorBit
  first res

/-- `ring_div_many`, `/repo/mpc-core/src/protocols/rep3_ring/yao.rs:955-980` -/
def ringDivMany (input1 input2 : List (Share (BitVec k))) : Rep3M R M (List (Share (BitVec k))) :=
  blueprint (ringType k) (ringType k) (bitsToRing k) input1.length (Circ.ringDivMany k) (input1 ++ input2)

/-- `ring_div`, `/repo/mpc-core/src/protocols/rep3_ring/yao.rs:1103-1115` -/
def ringDiv (input1 input2 : Share (BitVec k)) : Rep3M R M (Share (BitVec k)) := do
  let res ← ringDivMany [input1] [input2]
  first res

/-- `ring_div_by_public_many`, `/repo/mpc-core/src/protocols/rep3_ring/yao.rs:1118-1142` -/
def ringDivByPublicMany (input : List (Share (BitVec k))) (divisors : List (BitVec k)) :
    Rep3M R M (List (Share (BitVec k))) :=
  blueprint (ringType k) (ringType k) (bitsToRing k) input.length
    (Circ.ringDivByPublicMany k (divisors.flatMap ringBits)) input

/-- `ring_div_by_public`, `/repo/mpc-core/src/protocols/rep3_ring/yao.rs:1145-1156` -/
def ringDivByPublic (input : Share (BitVec k)) (divisor : BitVec k) : Rep3M R M (Share (BitVec k)) := do
  let res ← ringDivByPublicMany [input] [divisor]
  first res

/-- `ring_div_by_shared_many`, `/repo/mpc-core/src/protocols/rep3_ring/yao.rs:1159-1183` -/
def ringDivBySharedMany (input : List (BitVec k)) (divisors : List (Share (BitVec k))) :
    Rep3M R M (List (Share (BitVec k))) :=
  if input.length ≠ divisors.length then panicWith "assertion failed: input.len() == divisors.len()" else
  blueprint (ringType k) (ringType k) (bitsToRing k) input.length
    (Circ.ringDivBySharedMany k (input.flatMap ringBits)) divisors

/-- `ring_div_by_shared`, `/repo/mpc-core/src/protocols/rep3_ring/yao.rs:1186-1197` -/
def ringDivByShared (input : BitVec k) (divisor : Share (BitVec k)) : Rep3M R M (Share (BitVec k)) := do
  let res ← ringDivBySharedMany [input] [divisor]
  first res

/-- `public_divisor_to_ring`, `/repo/mpc-core/src/protocols/rep3_ring/yao.rs:985-987` -/
def publicDivisorToRing (k : Nat) (divisor : BitVec 512) : BitVec k := divisor.setWidth k

omit [Sample R (BitVec k)] in
/-- `ring_div_by_public_to_limbs_many`, `/repo/mpc-core/src/protocols/rep3_ring/yao.rs:1050-1077` -/
def ringDivByPublicToLimbsMany [Sample R (ZMod p)] (w : Nat) (input : List (Share (BitVec k)))
    (divisor : BitVec 512) (limbSize numLimbs : Nat) : Rep3M R M (List (Share (ZMod p))) :=
  blueprint (ringType k) (fieldType p) (bitsToField w p) (2 * input.length * numLimbs)
    (Circ.ringDivByPublicToLimbsMany p (modBits p) k (ringBits (publicDivisorToRing k divisor)) limbSize numLimbs)
    input

omit [Sample R (BitVec k)] in
/-- `ring_div_by_public_to_limbs`, `/repo/mpc-core/src/protocols/rep3_ring/yao.rs:1080-1100`: the first two
limbs, whatever their number. -/
def ringDivByPublicToLimbs [Sample R (ZMod p)] (w : Nat) (input : Share (BitVec k))
    (divisor : BitVec 512) (limbSize numLimbs : Nat) : Rep3M R M (Share (ZMod p) × Share (ZMod p)) := do
  let res ← ringDivByPublicToLimbsMany w [input] divisor limbSize numLimbs
  match res with
  | x :: y :: _ => pure (x, y)
  | _ => panicWith "index out of bounds"

/-- `decompose_field_to_rings_many`, `/repo/mpc-core/src/protocols/rep3_ring/yao.rs:1200-1326` -/
def decomposeFieldToRingsMany (inputs : List (Share (ZMod p))) (numDecomps decomposeBitlen : Nat) :
    Rep3M R M (List (Share (BitVec k))) :=
  blueprint (fieldType p) (ringType k) (bitsToRing k) (numDecomps * inputs.length)
    (Circ.decomposeToRingsMany p (modBits p) numDecomps decomposeBitlen k) inputs

/-- `decompose_field_to_rings`, `/repo/mpc-core/src/protocols/rep3_ring/yao.rs:1329-1346` -/
def decomposeFieldToRings (input : Share (ZMod p)) (numDecomps decomposeBitlen : Nat) :
    Rep3M R M (List (Share (BitVec k))) :=
  decomposeFieldToRingsMany [input] numDecomps decomposeBitlen

/-! ### Conversions of ring elements -/

/-- `y2a`, `/repo/mpc-core/src/protocols/rep3_ring/conversion.rs:720-803` -/
def y2aRing (x : List Label) (delta : Option Label) : Rep3M R M (Share (BitVec k)) :=
  y2aOf (ringType k) (bitsToRing k) x delta

/-- `y2a_streaming`, `/repo/mpc-core/src/protocols/rep3_ring/conversion.rs:806-841` -/
def y2aRingStreaming (x : List Label) (delta : Option Label) : Rep3M R M (Share (BitVec k)) :=
  y2aStreamingOf (ringType k) (bitsToRing k) x delta

omit [Sample R (BitVec k)] in
/-- `joint_input_binary_xored_many`, `/repo/mpc-core/src/protocols/rep3_ring/yao.rs:287-357`.  The labels of the
elements are drawn one after the other, as here. -/
def jointInputBinaryXoredMany (x : List (Share (BitVec k))) (delta : Option Label) :
    Rep3M R M (List Label × List Label) :=
  jointInput (x.length * k) (x.flatMap fun s => ringBits (s.a ^^^ s.b)) (x.flatMap fun s => ringBits s.a) delta

omit [YaoRng R] in
/-- `y2b`, `/repo/mpc-core/src/protocols/rep3_ring/conversion.rs:904-935` -/
def y2bRing [UintCodec M k] (x : List Label) : Rep3M R M (Share (BitVec k)) := do
  let collapsed ← orFail (collapseRing k x)
  let id ← stateId
  match id with
  | ID0 => do
    let r ← withRand fun g => g.draw1 (α := BitVec k)
    let rx := collapsed ^^^ r
    sendTo ID2 rx
    pure ⟨r, rx⟩
  | ID1 => do
    let r ← withRand fun g => g.draw2 (α := BitVec k)
    pure ⟨collapsed, r⟩
  | ID2 => do
    let rx ← recvFrom ID0
    pure ⟨rx, collapsed⟩

/-- `a2y2b`, `/repo/mpc-core/src/protocols/rep3_ring/conversion.rs:986-997` -/
def a2y2bRing [UintCodec M k] (x : Share (BitVec k)) : Rep3M R M (Share (BitVec k)) := do
  let delta ← generateRandomGarblerDelta
  let y ← a2yOf (ringType k) x delta
  y2bRing y

/-- `a2y2b_streaming`, `/repo/mpc-core/src/protocols/rep3_ring/conversion.rs:1000-1011` -/
def a2y2bRingStreaming [UintCodec M k] (x : Share (BitVec k)) : Rep3M R M (Share (BitVec k)) := do
  let delta ← generateRandomGarblerDelta
  let y ← a2yStreamingOf (ringType k) x delta
  y2bRing y

/-- `b2y2a`, `/repo/mpc-core/src/protocols/rep3_ring/conversion.rs:1014-1025` -/
def b2y2aRing (x : Share (BitVec k)) : Rep3M R M (Share (BitVec k)) := do
  let delta ← generateRandomGarblerDelta
  let y ← b2yOf k x delta
  y2aRing y delta

/-- `b2y2a_streaming`, `/repo/mpc-core/src/protocols/rep3_ring/conversion.rs:1028-1039` -/
def b2y2aRingStreaming (x : Share (BitVec k)) : Rep3M R M (Share (BitVec k)) := do
  let delta ← generateRandomGarblerDelta
  let y ← b2yOf k x delta
  y2aRingStreaming y delta

end Ring

end Verif.Yao
