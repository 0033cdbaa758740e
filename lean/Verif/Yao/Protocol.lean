import Verif.Yao.Circuits
import Verif.Rep3.Binary
import Mathlib.Data.ZMod.Basic

/-!
# Garbled circuits between three parties

Models the network side of `/repo/mpc-core/src/protocols/rep3/yao.rs`, `yao/garbler.rs`,
`yao/evaluator.rs`, `yao/streaming_garbler.rs`, `yao/streaming_evaluator.rs` and the Yao conversions of
`/repo/mpc-core/src/protocols/rep3/conversion.rs:463-838`.

Party 0 evaluates, parties 1 and 2 garble the same circuit from the same randomness: party 1 sends its
blocks, party 2 sends a digest of its blocks.  The label hash and the digest are arbitrary functions.
-/

namespace Verif.Yao

open PartyID
open Verif.Rep3
open MPC (bail panicWith)

/-- The output of SHA3-256. -/
abbrev Digest := BitVec 256

/-- What the protocol draws from a generator: labels (`WireMod2::rand`) and seeds (`[u8; 32]`) of
generators. -/
class YaoRng (R : Type) where
  Seed : Type
  label : Sample R Label
  seed : Sample R Seed
  seedable : Seedable R Seed

attribute [instance_reducible, instance] YaoRng.label YaoRng.seed YaoRng.seedable

/-- The label hash, the digest of a sequence of blocks, and the serialisation of blocks and digests. -/
class YaoNet (M : Type) where
  hash : Hash
  digest : List Label → Digest
  labels : Codec M (List Label)
  digests : Codec M (List Digest)

attribute [instance_reducible, instance] YaoNet.labels YaoNet.digests

variable {R M : Type} {w p : Nat} [YaoRng R] [YaoNet M]

/-- `GCUtils::garbled_circuits_error`, `/repo/mpc-core/src/protocols/rep3/yao.rs:118-120`: an error gets
another message, a panic stays. -/
def gcErr : Err → Err
  | .err _ => .err "Garbled Circuit failed"
  | .panic m => .panic m

omit [YaoRng R] [YaoNet M] in
/-- `GCUtils::garbled_circuits_error(res)?`, `/repo/mpc-core/src/protocols/rep3/yao.rs:118-120` -/
def gcError {α : Type} : Except Err α → Rep3M R M α
  | .ok a => pure a
  | .error e => MPC.throw (gcErr e)

omit [YaoRng R] [YaoNet M] in
/-- `res?` -/
def orFail {α : Type} : Except Err α → Rep3M R M α
  | .ok a => pure a
  | .error e => MPC.throw e

/-! ### Delta -/

/-- `GCUtils::random_delta`, `/repo/mpc-core/src/protocols/rep3/yao.rs:195-197`: `WireMod2::rand_delta` is
a random label whose colour is set to one. -/
def randomDelta (rng : R) : Label × R :=
  let (x, rng) := Sample.sample (α := Label) rng
  (x ||| 1#128, rng)

/-- `/repo/mpc-core/src/protocols/rep3/rngs.rs:72-78` -/
def garblerDelta (id : PartyID) (g : CorrelatedRng R) : Option Label × CorrelatedRng R :=
  match id with
  | ID0 => (none, g)
  | ID1 =>
    let (d, r) := randomDelta g.rand.rng1
    (some d, { g with rand := { g.rand with rng1 := r } })
  | ID2 =>
    let (d, r) := randomDelta g.rand.rng2
    (some d, { g with rand := { g.rand with rng2 := r } })

omit [YaoNet M] in
/-- `state.rngs.generate_random_garbler_delta(state.id)`,
`/repo/mpc-core/src/protocols/rep3/rngs.rs:72-78` -/
def generateRandomGarblerDelta : Rep3M R M (Option Label) := do
  let id ← stateId
  withRngs (garblerDelta id)

omit [YaoRng R] [YaoNet M] in
/-- `delta.ok_or_else(|| eyre::eyre!("No delta provided"))?` -/
def needDelta (delta : Option Label) : Rep3M R M Label :=
  match delta with
  | some d => pure d
  | none => bail "No delta provided"

/-! ### Encoding and sharing inputs -/

/-- `encode_wire`, `encode_bits_as_wires`, `/repo/mpc-core/src/protocols/rep3/yao.rs:288-312`: the zero
labels and the labels of the bits. -/
def encodeBits (d : Label) : List Bool → R → (List Label × List Label) × R
  | [], rng => (([], []), rng)
  | b :: bs, rng =>
    let (zero, rng) := Sample.sample (α := Label) rng
    let ((zs, es), rng) := encodeBits d bs rng
    ((zero :: zs, (zero ^^^ d.cmul b) :: es), rng)

omit [YaoNet M] in
/-- `GCUtils::encode_bits(bits, &mut state.rng, delta)`,
`/repo/mpc-core/src/protocols/rep3/yao.rs:328-356` -/
def encodeOwn (d : Label) (bits : List Bool) : Rep3M R M (List Label × List Label) :=
  MPC.modifyGet fun s =>
    let (x, rng) := encodeBits d bits s.rng
    (x, { s with rng := rng })

/-- `GCUtils::field_to_bits`, `field_to_bits_as_u16`, `/repo/mpc-core/src/protocols/rep3/yao.rs:255-267` -/
def fieldBits (x : ZMod p) : List Bool := uintToBits x.val (modBits p)

omit [YaoRng R] in
/-- `GCUtils::send_inputs`, `/repo/mpc-core/src/protocols/rep3/yao.rs:164-192`.  The two sends go to
different parties and run concurrently in the code; here one after the other. -/
def sendInputs (garblerWires evaluatorWires : List Label) (garblerId : PartyID) : Rep3M R M Unit := do
  sendMany garblerId garblerWires
  sendMany ID0 evaluatorWires

omit [YaoRng R] in
/-- `GCUtils::receive_bundle_from`, `/repo/mpc-core/src/protocols/rep3/yao.rs:146-162` -/
def receiveBundle (n : Nat) (src : PartyID) : Rep3M R M (List Label) := do
  let rcv ← recvMany (α := Label) src
  if rcv.length ≠ n then bail "Invalid number of elements received" else pure rcv

/-- The common body of `joint_input_arithmetic_added_many` and `joint_input_binary_xored`,
`/repo/mpc-core/src/protocols/rep3/yao.rs:452-510`, `521-561`: party 1 inputs the bits `bits1`, party 2
inputs `bits2`, `n` bits each. -/
def jointInput (n : Nat) (bits1 bits2 : List Bool) (delta : Option Label) :
    Rep3M R M (List Label × List Label) := do
  let id ← stateId
  match id with
  | ID0 => do
    let x01 ← receiveBundle n ID1
    let x2 ← receiveBundle n ID2
    pure (x01, x2)
  | ID1 => do
    let d ← needDelta delta
    let (mine, theirs) ← encodeOwn d bits1
    sendInputs mine theirs ID2
    let x2 ← receiveBundle n ID2
    pure (mine, x2)
  | ID2 => do
    let d ← needDelta delta
    let (mine, theirs) ← encodeOwn d bits2
    sendInputs mine theirs ID1
    let x01 ← receiveBundle n ID1
    pure (x01, mine)

/-- How elements of a field or a ring go on wires and are added there. -/
structure WireType (α : Type) where
  size : Nat
  bits : α → List Bool
  add : List Label → List Label → Circ Label (List Label)

/-- `F::MODULUS_BIT_SIZE`, `GCUtils::field_to_bits_as_u16`, `GarbledCircuits::adder_mod_p` -/
def fieldType (p : Nat) : WireType (ZMod p) where
  size := modBits p
  bits := fieldBits
  add := Circ.adderModP p

/-- `GCUtils::ring_to_bits_as_u16`, `ring_to_bits`, `/repo/mpc-core/src/protocols/rep3_ring/yao.rs:46-64` -/
def ringBits {k : Nat} (x : BitVec k) : List Bool := uintToBits x.toNat k

/-- `T::K`, `GCUtils::ring_to_bits_as_u16`, `GarbledCircuits::adder_mod_2k` -/
def ringType (k : Nat) : WireType (BitVec k) where
  size := k
  bits := ringBits
  add := Circ.adderMod2k

/-- `joint_input_arithmetic_added_many`, `/repo/mpc-core/src/protocols/rep3/yao.rs:440-511` for fields and
`/repo/mpc-core/src/protocols/rep3_ring/yao.rs:107-176` for rings.  The labels of the elements are drawn one
after the other, as here. -/
def jointInputArithmeticAddedMany {α : Type} [Add α] (W : WireType α) (x : List (Share α))
    (delta : Option Label) : Rep3M R M (List Label × List Label) :=
  jointInput (x.length * W.size) (x.flatMap fun s => W.bits (s.a + s.b)) (x.flatMap fun s => W.bits s.a) delta

/-- `joint_input_arithmetic_added`, `/repo/mpc-core/src/protocols/rep3/yao.rs:430-437`,
`/repo/mpc-core/src/protocols/rep3_ring/yao.rs:97-104` -/
def jointInputArithmeticAdded {α : Type} [Add α] (W : WireType α) (x : Share α) (delta : Option Label) :
    Rep3M R M (List Label × List Label) :=
  jointInputArithmeticAddedMany W [x] delta

/-- `joint_input_binary_xored`, `/repo/mpc-core/src/protocols/rep3/yao.rs:514-562` and, with `bitlen = T::K`,
`/repo/mpc-core/src/protocols/rep3_ring/yao.rs:235-284` -/
def jointInputBinaryXored (x : Share (BitVec w)) (delta : Option Label) (bitlen : Nat) :
    Rep3M R M (List Label × List Label) :=
  jointInput bitlen (uintToBits (x.a ^^^ x.b).toNat bitlen) (uintToBits x.a.toNat bitlen) delta

/-- `n` wire labels that all parties draw, `/repo/mpc-core/src/protocols/rep3/yao.rs:369-371` -/
def sharedLabels (n : Nat) : Rep3M R M (List Label) := do
  let id ← stateId
  (List.replicate n ()).mapM fun (_ : Unit) => withRngs fun g => g.generateShared (α := Label) id

/-- `x1.iter_mut().zip(bits).for_each(|(x, bit)| x.plus_eq(&delta.cmul(bit)))`,
`/repo/mpc-core/src/protocols/rep3/yao.rs:386-389`, `408-411` -/
def offsetLabels (d : Label) (x1 : List Label) (bits : List Bool) : List Label :=
  List.zipWith (fun x bit => x ^^^ d.cmul bit) x1 bits

/-- `joint_input_arithmetic`, `/repo/mpc-core/src/protocols/rep3/yao.rs:359-428` -/
def jointInputArithmetic (x : Share (ZMod p)) (delta : Option Label) :
    Rep3M R M (List Label × List Label × List Label) := do
  let x1 ← sharedLabels (modBits p)
  let id ← stateId
  match id with
  | ID0 => do
    let x0 ← receiveBundle (modBits p) ID1
    let x2 ← receiveBundle (modBits p) ID2
    pure (x0, x1, x2)
  | ID1 => do
    let d ← needDelta delta
    let x1 := offsetLabels d x1 (fieldBits x.a)
    let (mine, theirs) ← encodeOwn d (fieldBits x.b)
    sendInputs mine theirs ID2
    let x2 ← receiveBundle (modBits p) ID2
    pure (mine, x1, x2)
  | ID2 => do
    let d ← needDelta delta
    let x1 := offsetLabels d x1 (fieldBits x.b)
    let (mine, theirs) ← encodeOwn d (fieldBits x.a)
    sendInputs mine theirs ID1
    let x0 ← receiveBundle (modBits p) ID1
    pure (x0, x1, mine)

/-- `input_field_id2_many`, `/repo/mpc-core/src/protocols/rep3/yao.rs:565-611`, and `input_ring_id2_many`,
`/repo/mpc-core/src/protocols/rep3_ring/yao.rs:179-221` -/
def inputId2Many {α : Type} (W : WireType α) (x : Option (List α)) (delta : Option Label) (n : Nat) :
    Rep3M R M (List Label) := do
  let id ← stateId
  match id with
  | ID2 => do
    let d ← needDelta delta
    match x with
    | none => bail "No input provided"
    | some x =>
      if x.length ≠ n then bail "Invalid number of inputs" else do
      let (mine, theirs) ← encodeOwn d (x.flatMap W.bits)
      sendInputs mine theirs ID1
      pure mine
  | _ => receiveBundle (n * W.size) ID2

/-- `input_field_id2`, `/repo/mpc-core/src/protocols/rep3/yao.rs:687-695`, and `input_ring_id2`,
`/repo/mpc-core/src/protocols/rep3_ring/yao.rs:224-232` -/
def inputId2 {α : Type} (W : WireType α) (x : Option α) (delta : Option Label) : Rep3M R M (List Label) :=
  inputId2Many W (x.map fun v => [v]) delta 1

/-! ### Garbler and evaluator with their network -/

omit [YaoRng R] in
/-- A garbler with given delta and generator, `/repo/mpc-core/src/protocols/rep3/yao/garbler.rs:52-63` -/
def Garbler.new (d : Label) (rng : R) : Garbler R where
  delta := d
  currentOutput := 0
  currentGate := 0
  rng := rng
  blocks := []
  constZero := none
  constOne := none

/-- An evaluator with a circuit, `/repo/mpc-core/src/protocols/rep3/yao/evaluator.rs:36-44` -/
def Evaluator.new (circuit : List Label) : Evaluator where
  currentOutput := 0
  currentGate := 0
  circuit := circuit
  constZero := none
  constOne := none

omit [YaoNet M] in
/-- `Rep3Garbler::new_with_delta`, `/repo/mpc-core/src/protocols/rep3/yao/garbler.rs:47-64`;
`StreamingRep3Garbler::new_with_delta`,
`/repo/mpc-core/src/protocols/rep3/yao/streaming_garbler.rs:43-59` -/
def newWithDelta (d : Label) : Rep3M R M (Garbler R) := do
  let id ← stateId
  let seed ← withRngs? fun g => g.generateGarblerRandomness (α := YaoRng.Seed R) id
  pure (Garbler.new d (Seedable.fromSeed seed))

omit [YaoRng R] in
/-- `send_circuit`, `/repo/mpc-core/src/protocols/rep3/yao/garbler.rs:84-101` -/
def sendCircuit (blocks : List Label) : Rep3M R M Unit := do
  let id ← stateId
  match id with
  | ID0 => panicWith "Garbler should not be PartyID::ID0"
  | ID1 => sendMany ID0 blocks
  | ID2 => sendTo ID0 (YaoNet.digest M blocks)

omit [YaoRng R] in
/-- `Rep3Evaluator::new`, `receive_circuit`, `/repo/mpc-core/src/protocols/rep3/yao/evaluator.rs:30-45`,
`61-78` -/
def receiveCircuit : Rep3M R M Evaluator := do
  let netId ← MPC.netId
  if netId ≠ ID0 then panicWith "Evaluator should be PartyID::ID0" else do
  let circuit ← recvMany (α := Label) ID1
  let shouldHash ← recvFrom (α := Digest) ID2
  if shouldHash ≠ YaoNet.digest M circuit then
    bail "Inconsistent Garbled Circuits: Hashes do not match!"
  else pure (Evaluator.new circuit)

/-- Garble and evaluate a circuit, keeping the labels: the common part of `a2y` and `a2y_many`,
`/repo/mpc-core/src/protocols/rep3/conversion.rs:472-487`, `531-546`. -/
def evalShared {α : Type} (delta : Option Label) (c : Circ Label α) : Rep3M R M α := do
  let id ← stateId
  match id with
  | ID0 => do
    let e ← receiveCircuit
    let (res, _) ← gcError (c.run (Evaluator.backend (YaoNet.hash M)) e)
    pure res
  | _ => do
    let d ← needDelta delta
    let g ← newWithDelta d
    let (res, g) ← gcError (c.run (Garbler.backend (YaoNet.hash M)) g)
    sendCircuit g.blocks
    pure res

/-- What a garbler does before it sends its circuit when the outputs are opened; the labels of the
outputs.  `/repo/mpc-core/src/protocols/rep3/conversion.rs:557-560`, `577-580` -/
def garble (delta : Option Label) (c : Circ Label (List Label)) : Rep3M R M (List Label × Garbler R) := do
  let d ← needDelta delta
  let g ← newWithDelta d
  let (res, g) ← gcError (c.run (Garbler.backend (YaoNet.hash M)) g)
  pure (res, g.outputEvaluator (YaoNet.hash M) res)

/-- Not in the code, used to state what the outputs need: the offset and the zero labels of the outputs
of a circuit at the garblers. -/
def outputLabels (delta : Option Label) (c : Circ Label (List Label)) :
    Rep3M R M (Option Label × List Label) := do
  let id ← stateId
  match id with
  | ID0 => pure (none, [])
  | _ => do
    let (res, _) ← garble delta c
    pure (delta, res)

/-- Garble and evaluate a circuit and open the outputs to parties 0 and 1 (`output_to_id0_and_id1`).
`/repo/mpc-core/src/protocols/rep3/yao/garbler.rs:128-179`,
`/repo/mpc-core/src/protocols/rep3/yao/evaluator.rs:95-163`; the calls are those of
`/repo/mpc-core/src/protocols/rep3/conversion.rs:557-561`, `577-583`, `604-610`. -/
def evalOpen01 (delta : Option Label) (c : Circ Label (List Label)) : Rep3M R M (Option (List Bool)) := do
  let id ← stateId
  match id with
  | ID0 => do
    let e ← receiveCircuit
    let (res, e) ← gcError (c.run (Evaluator.backend (YaoNet.hash M)) e)
    let (bits, _) ← orFail (e.outputEvaluator (YaoNet.hash M) res)
    sendMany ID1 res
    pure (some bits)
  | ID1 => do
    let (res, g) ← garble delta c
    sendCircuit g.blocks
    let blocks ← recvMany ID0
    let bits ← orFail (decodeBlocks g.delta blocks res)
    pure (some bits)
  | ID2 => do
    let (_, g) ← garble delta c
    sendCircuit g.blocks
    pure none

/-- Garble and evaluate a circuit and open the outputs to all parties (`output_all_parties`),
`/repo/mpc-core/src/protocols/rep3/yao/garbler.rs:154-163`,
`/repo/mpc-core/src/protocols/rep3/yao/evaluator.rs:113-152`. -/
def evalOpenAll (delta : Option Label) (c : Circ Label (List Label)) : Rep3M R M (List Bool) := do
  let id ← stateId
  match id with
  | ID0 => do
    let e ← receiveCircuit
    let (res, e) ← gcError (c.run (Evaluator.backend (YaoNet.hash M)) e)
    let (bits, _) ← orFail (e.outputEvaluator (YaoNet.hash M) res)
    sendBothMany res
    pure bits
  | _ => do
    let (res, g) ← garble delta c
    sendCircuit g.blocks
    let blocks ← recvMany ID0
    orFail (decodeBlocks g.delta blocks res)

/-! ### Streaming -/

omit [YaoRng R] in
/-- `send_block` on each block, `/repo/mpc-core/src/protocols/rep3/yao/streaming_garbler.rs:149-163`.  At
party 2 the block goes into the hash: `Garbler.blocks` records it. -/
def emit (blocks : List Label) : Rep3M R M Unit := do
  let id ← stateId
  match id with
  | ID0 => panicWith "Garbler should not be PartyID::ID0"
  | ID1 => blocks.forM fun b => sendTo ID0 b
  | ID2 => pure ()

/-- Do a garbler operation and send the blocks it adds. -/
def streamOp (f : Garbler R → Label × Garbler R) (g : Garbler R) : Rep3M R M (Label × Garbler R) := do
  let (c, g') := f g
  emit (g'.blocks.drop g.blocks.length)
  pure (c, g')

/-- A circuit at a streaming garbler: `impl Fancy, FancyBinary, FancyBinaryConstant for
StreamingRep3Garbler`, `/repo/mpc-core/src/protocols/rep3/yao/streaming_garbler.rs:216-298` -/
def streamGarble {α : Type} : Circ Label α → Garbler R → Rep3M R M (α × Garbler R)
  | .ret a, g => pure (a, g)
  | .fail e, _ => MPC.throw (gcErr e)
  | .and a b k, g => do
    let (c, g) ← streamOp (fun g => g.and (YaoNet.hash M) a b) g
    streamGarble (k c) g
  | .xor a b k, g => streamGarble (k (a ^^^ b)) g
  | .negate a k, g => streamGarble (k (g.delta ^^^ a)) g
  | .zero k, g => do
    let (c, g) ← streamOp Garbler.getZero g
    streamGarble (k c) g
  | .one k, g => do
    let (c, g) ← streamOp Garbler.getOne g
    streamGarble (k c) g

/-- `output_evaluator` of a streaming garbler,
`/repo/mpc-core/src/protocols/rep3/yao/streaming_garbler.rs:86-89`, `228-238` -/
def streamOutputs : List Label → Garbler R → Rep3M R M (Garbler R)
  | [], g => pure g
  | x :: xs, g => do
    let g' := g.output (YaoNet.hash M) x
    emit (g'.blocks.drop g.blocks.length)
    streamOutputs xs g'

/-- `StreamingRep3Evaluator`, `/repo/mpc-core/src/protocols/rep3/yao/streaming_evaluator.rs:18-25`;
`received` is what went into `hash`. -/
structure StreamEvaluator where
  currentOutput : Nat
  currentGate : Nat
  received : List Label
  constZero : Option Label
  constOne : Option Label

omit [YaoRng R] in
/-- `receive_block`, `/repo/mpc-core/src/protocols/rep3/yao/streaming_evaluator.rs:149-154` -/
def receiveBlock (e : StreamEvaluator) : Rep3M R M (Label × StreamEvaluator) := do
  let b ← recvFrom (α := Label) ID1
  pure (b, { e with received := e.received ++ [b] })

omit [YaoRng R] in
/-- `and`, `/repo/mpc-core/src/protocols/rep3/yao/streaming_evaluator.rs:183-193`, `252-260` -/
def StreamEvaluator.and (a b : Label) (e : StreamEvaluator) : Rep3M R M (Label × StreamEvaluator) := do
  let (gate0, e) ← receiveBlock e
  let (gate1, e) ← receiveBlock e
  pure (evaluateAndGate (YaoNet.hash M) e.currentGate a b gate0 gate1,
    { e with currentGate := e.currentGate + 1 })

omit [YaoRng R] in
/-- `const_zero`, `/repo/mpc-core/src/protocols/rep3/yao/streaming_evaluator.rs:264-274` -/
def StreamEvaluator.getZero (e : StreamEvaluator) : Rep3M R M (Label × StreamEvaluator) :=
  match e.constZero with
  | some z => pure (z, e)
  | none => do
    let (z, e) ← receiveBlock e
    pure (z, { e with constZero := some z })

omit [YaoRng R] in
/-- `const_one`, `/repo/mpc-core/src/protocols/rep3/yao/streaming_evaluator.rs:276-286` -/
def StreamEvaluator.getOne (e : StreamEvaluator) : Rep3M R M (Label × StreamEvaluator) :=
  match e.constOne with
  | some z => pure (z, e)
  | none => do
    let (z, e) ← receiveBlock e
    pure (z, { e with constOne := some z })

omit [YaoRng R] in
/-- A circuit at a streaming evaluator,
`/repo/mpc-core/src/protocols/rep3/yao/streaming_evaluator.rs:205-287` -/
def streamEvaluate {α : Type} : Circ Label α → StreamEvaluator → Rep3M R M (α × StreamEvaluator)
  | .ret a, e => pure (a, e)
  | .fail er, _ => MPC.throw (gcErr er)
  | .and a b k, e => do
    let (c, e) ← e.and a b
    streamEvaluate (k c) e
  | .xor a b k, e => streamEvaluate (k (a ^^^ b)) e
  | .negate a k, e => streamEvaluate (k a) e
  | .zero k, e => do
    let (c, e) ← e.getZero
    streamEvaluate (k c) e
  | .one k, e => do
    let (c, e) ← e.getOne
    streamEvaluate (k c) e

omit [YaoRng R] in
/-- `output` and `output_evaluator` of a streaming evaluator,
`/repo/mpc-core/src/protocols/rep3/yao/streaming_evaluator.rs:59-74`, `214-241` -/
def streamDecode : List Label → StreamEvaluator → Rep3M R M (List Bool × StreamEvaluator)
  | [], e => pure ([], e)
  | x :: xs, e => do
    let i := e.currentOutput
    let e := { e with currentOutput := i + 1 }
    let (ct0, e) ← receiveBlock e
    let (ct1, e) ← receiveBlock e
    if YaoNet.hash M (.output i false) x = ct0 then do
      let (bs, e) ← streamDecode xs e
      pure (false :: bs, e)
    else if YaoNet.hash M (.output i true) x = ct1 then do
      let (bs, e) ← streamDecode xs e
      pure (true :: bs, e)
    else bail "Output failed"

omit [YaoRng R] in
/-- `send_hash`, `/repo/mpc-core/src/protocols/rep3/yao/streaming_garbler.rs:140-146` -/
def sendHash (blocks : List Label) : Rep3M R M Unit := do
  let id ← stateId
  match id with
  | ID2 => sendTo ID0 (YaoNet.digest M blocks)
  | _ => pure ()

omit [YaoRng R] in
/-- `StreamingRep3Evaluator::new`, `/repo/mpc-core/src/protocols/rep3/yao/streaming_evaluator.rs:29-43` -/
def newStreamEvaluator : Rep3M R M StreamEvaluator := do
  let netId ← MPC.netId
  if netId ≠ ID0 then panicWith "Evaluator should be PartyID::ID0"
  else pure { currentOutput := 0, currentGate := 0, received := [], constZero := none, constOne := none }

omit [YaoRng R] in
/-- `receive_hash`, `/repo/mpc-core/src/protocols/rep3/yao/streaming_evaluator.rs:124-134` -/
def receiveHash (received : List Label) : Rep3M R M Unit := do
  let data ← recvFrom (α := Digest) ID2
  if data ≠ YaoNet.digest M received then bail "Inconsistent Garbled Circuits: Hashes do not match!"
  else pure ()

/-- The common part of `a2y_streaming`, `/repo/mpc-core/src/protocols/rep3/conversion.rs:501-517` -/
def evalSharedStreaming {α : Type} (delta : Option Label) (c : Circ Label α) : Rep3M R M α := do
  let id ← stateId
  match id with
  | ID0 => do
    let e ← newStreamEvaluator
    let (res, e) ← streamEvaluate c e
    receiveHash e.received
    pure res
  | _ => do
    let d ← needDelta delta
    let g ← newWithDelta d
    let (res, g) ← streamGarble c g
    sendHash g.blocks
    pure res

/-- Blocks one at a time, `/repo/mpc-core/src/protocols/rep3/yao/streaming_garbler.rs:170-175` -/
def readBlocks : Nat → Rep3M R M (List Label)
  | 0 => pure []
  | n + 1 => do
    let b ← recvFrom (α := Label) ID0
    let bs ← readBlocks n
    pure (b :: bs)

/-- A circuit on streaming parties with the outputs opened to parties 0 and 1,
`/repo/mpc-core/src/protocols/rep3/yao/streaming_garbler.rs:92-137`,
`/repo/mpc-core/src/protocols/rep3/yao/streaming_evaluator.rs:59-121`; the calls are those of
`/repo/mpc-core/src/protocols/rep3/conversion.rs:557-561`, `577-583`, `641-646`. -/
def evalOpen01Streaming (delta : Option Label) (c : Circ Label (List Label)) :
    Rep3M R M (Option (List Bool)) := do
  let id ← stateId
  match id with
  | ID0 => do
    let e ← newStreamEvaluator
    let (res, e) ← streamEvaluate c e
    let (bits, e) ← streamDecode res e
    receiveHash e.received
    res.forM fun b => sendTo ID1 b
    pure (some bits)
  | ID1 => do
    let d ← needDelta delta
    let g ← newWithDelta d
    let (res, g) ← streamGarble c g
    let g ← streamOutputs res g
    sendHash g.blocks
    let blocks ← readBlocks res.length
    let bits ← orFail (decodeBlocks g.delta blocks res)
    pure (some bits)
  | ID2 => do
    let d ← needDelta delta
    let g ← newWithDelta d
    let (res, g) ← streamGarble c g
    let g ← streamOutputs res g
    sendHash g.blocks
    pure none

/-! ### Conversions -/

/-- `GCUtils::bits_to_field`, `/repo/mpc-core/src/protocols/rep3/yao.rs:214-235`; `w` is `F::Uint::BITS`.
The sum of at most `w` bits does not wrap, so it is computed on numbers. -/
def bitsToField (w p : Nat) (bits : List Bool) : Except Err (ZMod p) :=
  if true ∈ bits.drop w then .error (.err "Invalid field element: bit string exceeds backend width")
  else
    let res := (bits.take w).foldr (fun b acc => 2 * acc + b.toNat) 0
    if res ≥ p then .error (.err "Invalid field element") else .ok (res : ZMod p)

/-- `GCUtils::collapse_bundle_to_lsb_bits_as_uint`, `/repo/mpc-core/src/protocols/rep3/yao.rs:122-133` -/
def collapse (w : Nat) (x : List Label) : BitVec w :=
  x.foldr (fun wire res => (res <<< 1) + BitVec.ofNat w wire.color.toNat) 0#w

/-- `a2y`, `/repo/mpc-core/src/protocols/rep3/conversion.rs:464-490`, and
`/repo/mpc-core/src/protocols/rep3_ring/conversion.rs:661-687` for rings -/
def a2yOf {α : Type} [Add α] (W : WireType α) (x : Share α) (delta : Option Label) : Rep3M R M (List Label) := do
  let (x01, x2) ← jointInputArithmeticAdded W x delta
  evalShared delta (W.add x01 x2)

/-- `a2y_streaming`, `/repo/mpc-core/src/protocols/rep3/conversion.rs:493-520`, and
`/repo/mpc-core/src/protocols/rep3_ring/conversion.rs:690-718` for rings -/
def a2yStreamingOf {α : Type} [Add α] (W : WireType α) (x : Share α) (delta : Option Label) :
    Rep3M R M (List Label) := do
  let (x01, x2) ← jointInputArithmeticAdded W x delta
  evalSharedStreaming delta (W.add x01 x2)

/-- `a2y`, `/repo/mpc-core/src/protocols/rep3/conversion.rs:464-490` -/
def a2y (x : Share (ZMod p)) (delta : Option Label) : Rep3M R M (List Label) := a2yOf (fieldType p) x delta

/-- `a2y_streaming`, `/repo/mpc-core/src/protocols/rep3/conversion.rs:493-520` -/
def a2yStreaming (x : Share (ZMod p)) (delta : Option Label) : Rep3M R M (List Label) :=
  a2yStreamingOf (fieldType p) x delta

/-- `a2y_many`, `/repo/mpc-core/src/protocols/rep3/conversion.rs:523-548` -/
def a2yMany (x : List (Share (ZMod p))) (delta : Option Label) : Rep3M R M (List (List Label)) := do
  let (x01, x2) ← jointInputArithmeticAddedMany (fieldType p) x delta
  evalShared delta (Circ.adderModPMany p (modBits p) x01 x2)

section Keys

omit [YaoRng R] [YaoNet M] in
/-- `state.rngs.bitcomp1.random_fes_3keys()` -/
def _root_.Verif.Rep3.bitcomp1Fes [Sample R (ZMod p)] : Rep3M R M (ZMod p × ZMod p × ZMod p) :=
  withRngs? fun g => (g.bitcomp1.random3).map fun (x, c) => (x, { g with bitcomp1 := c })

omit [YaoRng R] [YaoNet M] in
/-- `state.rngs.bitcomp2.random_fes_3keys()` -/
def _root_.Verif.Rep3.bitcomp2Fes [Sample R (ZMod p)] : Rep3M R M (ZMod p × ZMod p × ZMod p) :=
  withRngs? fun g => (g.bitcomp2.random3).map fun (x, c) => (x, { g with bitcomp2 := c })

variable {α : Type} [Sample R α]

omit [YaoRng R] [YaoNet M] in
/-- `state.rngs.bitcomp1.random_fes_3keys()` or `random_elements_3keys()` -/
def bitcomp1Keys : Rep3M R M (α × α × α) :=
  withRngs? fun g => (g.bitcomp1.random3).map fun (x, c) => (x, { g with bitcomp1 := c })

omit [YaoRng R] [YaoNet M] in
/-- `state.rngs.bitcomp2.random_fes_3keys()` or `random_elements_3keys()` -/
def bitcomp2Keys : Rep3M R M (α × α × α) :=
  withRngs? fun g => (g.bitcomp2.random3).map fun (x, c) => (x, { g with bitcomp2 := c })

omit [YaoRng R] [YaoNet M] in
/-- The two random components of an arithmetic sharing: the negated sum, known to party 2, and what each
party knows of the sharing.  `/repo/mpc-core/src/protocols/rep3/conversion.rs:553-554`, `569-575`,
`602-603`; the same statements in the loops of `/repo/mpc-core/src/protocols/rep3/yao.rs:947-950`,
`970-973`, `996-1004`, and for rings in `/repo/mpc-core/src/protocols/rep3_ring/conversion.rs:723-727`,
`742-755`, `781-785` and `/repo/mpc-core/src/protocols/rep3_ring/yao.rs:589-592`, `612-615`, `637-645`. -/
def composeKeys [AddCommGroup α] (id : PartyID) : Rep3M R M (α × Share α) :=
  match id with
  | ID0 => do
    let k3 ← bitcomp2Keys (α := α)
    pure (0, ⟨0, -(k3.1 + k3.2.1 + k3.2.2)⟩)
  | ID1 => do
    let k2 ← bitcomp1Keys (α := α)
    pure (0, ⟨-(k2.1 + k2.2.1 + k2.2.2), 0⟩)
  | ID2 => do
    let k2 ← bitcomp1Keys (α := α)
    let k3 ← bitcomp2Keys (α := α)
    let k2c := k2.1 + k2.2.1 + k2.2.2
    let k3c := k3.1 + k3.2.1 + k3.2.2
    pure (k2c + k3c, ⟨-k3c, -k2c⟩)

variable [AddCommGroup α] (W : WireType α)

/-- The inputs of the circuit of `y2a`: the share so far and the labels of what party 2 adds.
`/repo/mpc-core/src/protocols/rep3/conversion.rs:552-555`, `568-575`, `601-604`;
`/repo/mpc-core/src/protocols/rep3_ring/conversion.rs:722-728`, `741-756`, `780-786` -/
def y2aInputs (delta : Option Label) : Rep3M R M (Share α × List Label) := do
  let id ← stateId
  match id with
  | ID0 => do
    let (_, res) ← composeKeys ID0
    let x23 ← inputId2 W none none
    pure (res, x23)
  | ID1 => do
    let _ ← needDelta delta
    let (_, res) ← composeKeys ID1
    let x23 ← inputId2 W none none
    pure (res, x23)
  | ID2 => do
    let d ← needDelta delta
    let (x23, res) ← composeKeys ID2
    let x23 ← inputId2 W (some x23) (some d)
    pure (res, x23)

/-- Not in the code, used to state what the outputs need: the offset and the zero labels of the outputs of
the circuit of `y2a` at the garblers. -/
def y2aLabels (x : List Label) (delta : Option Label) : Rep3M R M (Option Label × List Label) := do
  let (_, x23) ← y2aInputs W delta
  outputLabels delta (W.add x x23)

omit [YaoRng R] [YaoNet M] [Sample R α] [AddCommGroup α] in
/-- The opened component goes into `res`; `ofBits` is `bits_to_field` or `bits_to_ring`.
`/repo/mpc-core/src/protocols/rep3/conversion.rs:561-562`, `581-583`, `611`;
`/repo/mpc-core/src/protocols/rep3_ring/conversion.rs:733-735`, `761-763`, `791-792` -/
def y2aFinish (ofBits : List Bool → Except Err α) (res : Share α) (x1 : Option (List Bool)) :
    Rep3M R M (Share α) := do
  let id ← stateId
  match id, x1 with
  | ID0, some x1 => do
    let v ← orFail (ofBits x1)
    pure { res with a := v }
  | ID1, some x1 => do
    let v ← orFail (ofBits x1)
    pure { res with b := v }
  | ID2, none => pure res
  | ID2, some _ => bail "Unexpected output received"
  | _, none => bail "No output received"

/-- `y2a`, `/repo/mpc-core/src/protocols/rep3/conversion.rs:550-622` for fields,
`/repo/mpc-core/src/protocols/rep3_ring/conversion.rs:720-803` for rings -/
def y2aOf (ofBits : List Bool → Except Err α) (x : List Label) (delta : Option Label) :
    Rep3M R M (Share α) := do
  let (res, x23) ← y2aInputs W delta
  let x1 ← evalOpen01 delta (W.add x x23)
  y2aFinish ofBits res x1

/-- `y2a_streaming`, `/repo/mpc-core/src/protocols/rep3/conversion.rs:628-657` for fields,
`/repo/mpc-core/src/protocols/rep3_ring/conversion.rs:806-841` for rings -/
def y2aStreamingOf (ofBits : List Bool → Except Err α) (x : List Label) (delta : Option Label) :
    Rep3M R M (Share α) := do
  let (res, x23) ← y2aInputs W delta
  let x1 ← evalOpen01Streaming delta (W.add x x23)
  y2aFinish ofBits res x1

end Keys

/-- `y2a`, `/repo/mpc-core/src/protocols/rep3/conversion.rs:550-622`; `w` is `F::Uint::BITS` -/
def y2a [Sample R (ZMod p)] (w : Nat) (x : List Label) (delta : Option Label) : Rep3M R M (Share (ZMod p)) :=
  y2aOf (fieldType p) (bitsToField w p) x delta

/-- `y2a_streaming`, `/repo/mpc-core/src/protocols/rep3/conversion.rs:628-657` -/
def y2aStreaming [Sample R (ZMod p)] (w : Nat) (x : List Label) (delta : Option Label) :
    Rep3M R M (Share (ZMod p)) :=
  y2aStreamingOf (fieldType p) (bitsToField w p) x delta

/-- `b2y`, `/repo/mpc-core/src/protocols/rep3/conversion.rs:663-691`, and, with `bitlen = T::K`,
`/repo/mpc-core/src/protocols/rep3_ring/conversion.rs:844-871` -/
def b2yOf (bitlen : Nat) (x : Share (BitVec w)) (delta : Option Label) : Rep3M R M (List Label) := do
  let (x01, x2) ← jointInputBinaryXored x delta bitlen
  let id ← stateId
  match id with
  | ID0 => do
    let (res, _) ← gcError ((Circ.xorMany x01 x2).run (Evaluator.backend (YaoNet.hash M)) (Evaluator.new []))
    pure res
  | _ => do
    let d ← needDelta delta
    let g ← newWithDelta d
    let (res, _) ← gcError ((Circ.xorMany x01 x2).run (Garbler.backend (YaoNet.hash M)) g)
    pure res

/-- `b2y`, `/repo/mpc-core/src/protocols/rep3/conversion.rs:663-691` -/
def b2y (p : Nat) (x : Share (BitVec w)) (delta : Option Label) : Rep3M R M (List Label) :=
  b2yOf (modBits p) x delta

section Bits

variable [Sample R (BitVec w)] [UintCodec M w]

omit [YaoRng R] [YaoNet M] [UintCodec M w] in
/-- `random_uint_rng1(bitlen)`, `/repo/mpc-core/src/protocols/rep3/rngs.rs:197-199` -/
def randomUint1 (bitlen : Nat) : Rep3M R M (BitVec w) :=
  withRand fun g =>
    let (x, g) := g.draw1 (α := BitVec w)
    (x &&& Uint.mask w bitlen, g)

omit [YaoRng R] [YaoNet M] [UintCodec M w] in
/-- `random_uint_rng2(bitlen)`, `/repo/mpc-core/src/protocols/rep3/rngs.rs:202-204` -/
def randomUint2 (bitlen : Nat) : Rep3M R M (BitVec w) :=
  withRand fun g =>
    let (x, g) := g.draw2 (α := BitVec w)
    (x &&& Uint.mask w bitlen, g)

omit [YaoRng R] [YaoNet M] in
/-- `y2b`, `/repo/mpc-core/src/protocols/rep3/conversion.rs:694-723` -/
def y2b (x : List Label) : Rep3M R M (Share (BitVec w)) := do
  let id ← stateId
  match id with
  | ID0 => do
    let r ← randomUint1 x.length
    let rx := collapse w x ^^^ r
    sendTo ID2 rx
    pure ⟨r, rx⟩
  | ID1 => do
    let r ← randomUint2 x.length
    pure ⟨collapse w x, r⟩
  | ID2 => do
    let rx ← recvFrom ID0
    pure ⟨rx, collapse w x⟩

omit [YaoRng R] [YaoNet M] in
/-- `y2b_many`, `/repo/mpc-core/src/protocols/rep3/conversion.rs:726-777` -/
def y2bMany (x : List (List Label)) : Rep3M R M (List (Share (BitVec w))) := do
  let id ← stateId
  match id with
  | ID0 => do
    let rs ← x.mapM fun (xs : List Label) => do
      let r ← randomUint1 (w := w) xs.length
      pure (r, collapse w xs ^^^ r)
    sendMany ID2 (rs.map Prod.snd)
    pure (rs.map fun (r : BitVec w × BitVec w) => ⟨r.1, r.2⟩)
  | ID1 => x.mapM fun (xs : List Label) => do
      let r ← randomUint2 (w := w) xs.length
      pure ⟨collapse w xs, r⟩
  | ID2 => do
    let rx ← recvMany ID0
    pure (List.zipWith (fun xs r => ⟨r, collapse w xs⟩) x rx)

/-- `a2y2b`, `/repo/mpc-core/src/protocols/rep3/conversion.rs:780-788` -/
def a2y2b (x : Share (ZMod p)) : Rep3M R M (Share (BitVec w)) := do
  let delta ← generateRandomGarblerDelta
  let y ← a2y x delta
  y2b y

/-- `a2y2b_streaming`, `/repo/mpc-core/src/protocols/rep3/conversion.rs:791-799` -/
def a2y2bStreaming (x : Share (ZMod p)) : Rep3M R M (Share (BitVec w)) := do
  let delta ← generateRandomGarblerDelta
  let y ← a2yStreaming x delta
  y2b y

/-- `a2y2b_many`, `/repo/mpc-core/src/protocols/rep3/conversion.rs:802-810` -/
def a2y2bMany (x : List (Share (ZMod p))) : Rep3M R M (List (Share (BitVec w))) := do
  let delta ← generateRandomGarblerDelta
  let y ← a2yMany x delta
  y2bMany y

end Bits

variable [Sample R (ZMod p)]

/-- `b2y2a`, `/repo/mpc-core/src/protocols/rep3/conversion.rs:816-824` -/
def b2y2a (x : Share (BitVec w)) : Rep3M R M (Share (ZMod p)) := do
  let delta ← generateRandomGarblerDelta
  let y ← b2y p x delta
  y2a w y delta

/-- Not in the code, used to state what the outputs need: the offset and the zero labels of the outputs of
the circuit of `b2y2a` at the garblers. -/
def b2y2aLabels (p : Nat) [Sample R (ZMod p)] (x : Share (BitVec w)) :
    Rep3M R M (Option Label × List Label) := do
  let delta ← generateRandomGarblerDelta
  let y ← b2y p x delta
  y2aLabels (fieldType p) y delta

/-- `b2y2a_streaming`, `/repo/mpc-core/src/protocols/rep3/conversion.rs:830-838` -/
def b2y2aStreaming (x : Share (BitVec w)) : Rep3M R M (Share (ZMod p)) := do
  let delta ← generateRandomGarblerDelta
  let y ← b2y p x delta
  y2aStreaming w y delta

end Verif.Yao
