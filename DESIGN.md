# Formal model of TaceoLabs/co-snarks in Lean 4

The source modelled is `/repo` at its pinned commit. The code is read as text and never built or run.

## 1. How the code is modelled

### 1.1 Parties, programs, schedules  (`Verif/Net/*`)
Every MPC function in the repository is the program of *one* party: it computes locally, draws from
its generators and calls `Network::send` / `Network::recv`. The model keeps that shape.

* `Prog ι M E α` is the program of one party: `ret`, `fail e` (an `Err` returned or a panic), `send to
  msg k`, `recv from k`. It is a monad, so the model of a Rust function reads line by line like the
  function, with the early return of `?` being `fail`.
* A `Config` holds the remaining program of every party, one FIFO channel per ordered pair of
  parties and, per party, the log of everything it received (its *view*).
* A step executes one `send` or one (enabled) `recv` of one party. A schedule is any sequence of steps.
* `Net/Exec.lean` proves the diamond property and from it C17: if one schedule finishes, every schedule
  is finite, never deadlocks and ends in the same results and the same views. So every protocol theorem, which is
  stated for *every* schedule, can be proved on one convenient schedule.
* Protocol theorems are stated with `Delivers p Q`: every maximal execution ends with all parties
  returning `Ok`, and the results satisfy `Q`.

Messages are values of an arbitrary type `M` with a codec (`Codec M α`: `dec (enc x) = some x`) for each
type that is sent, standing for ark-serialize; a decoding failure is an error. Concrete codecs are given in
examples so that the assumption is not vacuous.

### 1.2 Randomness
ChaCha12 is a deterministic state machine. The model takes an arbitrary type `R` of generator states with
arbitrary sampling functions `sample : R → α × R` (class `Sample R α`). Correctness theorems hold for all of them;
distributional theorems (C04, C21, C33) count over uniformly random tapes, i.e. they treat the
generator as ideal. That ChaCha12 is pseudorandom is not modelled.

### 1.3 Values
* Field elements: an arbitrary `Field F` (Mathlib); where integers matter, `ZMod p` with `p` prime.
* Fixed-width integers (`RUint`, `u8..u128`): `BitVec w`, `w` arbitrary, with the width contract of `field_uint.rs`.
* Ring elements `RingElement<T>`: `BitVec w` (arithmetic modulo 2^w); `Bit`: `BitVec 1`.
* Curve points: an arbitrary additive commutative group that is an `F`-module.

### 1.4 What is not modelled
Sockets, TLS, QUIC, timeouts, thread pools (rayon splits are modelled as arbitrary chunkings where the result
could depend on them), allocation, performance, constant-timeness, memory safety, malicious parties (the protocols
are semi-honest), pseudorandomness of ChaCha12, hardness assumptions, the correctness of arkworks itself.
`mpc_net::join` runs two closures on two *different* networks and two different states; it is modelled with two
actors per party (`Net/Join.lean`, `Net/Two.lean`) whose steps interleave in every way.

## 2. Trusted base
* Lean 4.33.0's kernel; Mathlib definitions used in statements (`Field`, `ZMod`, `BitVec`, `Polynomial`, ...).
* Axioms: at most `propext`, `Classical.choice`, `Quot.sound`. No own axioms, no `sorry`, no `native_decide`, no `bv_decide`.
  `Verif/Axioms.lean` prints the axioms of every theorem named in the manifest.
* The reading of the Rust source: every model definition cites file and lines.
* Idealisations in the statements on soundness (C100, C122, C123, C124). The prover is algebraic: they know a polynomial behind every
  point they send, and it does not depend on the secret of the reference string. The hash of the transcript is replaced by functions
  from what was sent so far, and the sets of bad challenges are fixed before each challenge. Neither the algebraic group model nor the
  random oracle is justified here. C124 also bounds the number of coefficients by the number of rows of the circuit, which an attacker with
  a longer reference string need not respect; therefore it is partial.

### 2.1 Coverage: what is modelled
All paths below `/repo`. "Not modelled" lists what exists next to it and has no definition in the model.

| source | modelled in | not modelled |
|---|---|---|
| `mpc-net/src/lib.rs` (`Network::send/recv`), `mpc-core/src/protocols/rep3/network.rs`, `shamir/network.rs` | `Net/*`, `Rep3/State`, `Shamir/Rng`, `Shamir/Arith` | transports; byte encodings (a `Codec` is assumed to round-trip); the bound of 32 messages of `LocalNetwork` (channels are unbounded) |
| `mpc-core/src/protocols/rep3.rs`, `rep3/rngs.rs`, `rep3/arithmetic*`, `rep3/arithmetic/ops.rs` | `Rep3/{State,Share,Arith}` | the seed type of ChaCha12 (any `Seedable` generator) |
| `rep3/binary*`, `rep3/detail.rs` (adders), `rep3/conversion.rs` | `Rep3/{Binary,Detail,Adder,Conversion}` | |
| `rep3_ring/*` (arithmetic, binary, detail, conversion, casts) | `Ring/Ring` | |
| `shamir.rs`, `shamir/{arithmetic,network,rngs}.rs` | `Shamir/{Shamir,Rng,Arith}` | overflow of the `usize` refill counter |
| `mpc-core/src/protocols/bridges/*` | `Bridge/Rep3ToShamir` | the network wrapper structs |
| `rep3/poly.rs`, `shamir/poly.rs` | `Poly/Eval` (one definition over the two operation sets) | the thread pool: the chunking is modelled, and the reduction of the partial results in every order |
| `rep3/pointshare*`, `shamir/pointshare.rs` | `Rep3/Point`, `Shamir/Arith` | `is_zero*` (see `Curve/Convert`); the bucket method inside arkworks' `msm_unchecked`, taken as a sum |
| `rep3/conversion.rs:841-1312`, `rep3/detail.rs` (`point_addition*`), `rep3/pointshare.rs` (`is_zero*`) | `Curve/Convert` | the sub-group check and the curves' extension fields (coordinates are in a prime field) |
| `rep3_ring/gadgets/{ohv,lut_field,lut_curve}.rs`, `rep3_ring/{lut_field,lut_curve}.rs`, `lut.rs` | `Ring/{Ohv,Lut}` | the Shamir provider |
| `rep3_ring/gadgets/sort.rs`, `rep3/rngs.rs` (random permutations) | `Ring/Sort`, over `Net/Two` | `rand`'s index sampling inside Fisher-Yates is an arbitrary `Sample` |
| `rep3/yao.rs` (gates), `rep3/yao/{garbler,evaluator,circuits}.rs` (lines 1-773, 1119-1251), `rep3/yao/bristol_fashion/*` (verification, gate by gate evaluation) | `Yao/{Gate,Circ,Circuits,SortNet,Bristol}`, `Spec/{Garble,Netlist}` | `WireMod2` and its hash are 128 bit blocks and an arbitrary function; the netlist parser and the levelled evaluation (dead code); hash, AES and WNAF circuits |
| `rep3/yao.rs:118-611`, `rep3/yao/{garbler,evaluator,streaming_garbler,streaming_evaluator}.rs` (networking), `rep3/conversion.rs:455-838` | `Yao/Protocol`, `Spec/YaoShare` | the digest is an arbitrary function; the two concurrent sends of `send_inputs` go out one after the other; `input_two_field_id2_many` |
| `rep3/yao/circuits.rs` (division, powers of two, slices, limbs; through `decompose_*`, `rep3/yao.rs:613-890,920-1250`, `rep3_ring/yao.rs`, `rep3_ring/conversion.rs` (Yao), `rep3_ring/casts.rs` (Yao) | `Yao/{ArithCircuits,Blueprint}` | `field_int_div_by_*` are covered; the decomposition into another field, `ring_div_by_public_to_fr_limbs_and_fq`, the vector forms `b2y_many`, `y2b_many` of the ring |
| `mpc-core/src/gadgets/poseidon2/*` | `Gadgets/Poseidon2`, `Spec/Poseidon2` | the constants of the BN254 instances (parameters are arbitrary), the circom accelerators (which also output intermediate states) |
| `mpc-core/src/gadgets/merkle_tree/*` | `Gadgets/Merkle`, `Spec/Merkle` | debug assertions |
| `co-circom/co-groth16/src/groth16.rs`, `groth16/reduction.rs`, `mpc/*.rs` | `Groth16/*`, `Spec/Groth16` | creation of the session states in `prove` (C37, C31), tracing, `rayon` (the two closures of a `rayon::join` are run one after the other). Assumed of the libraries: `taceo_ark_algebra` domains compute the transforms their documentation describes (with bit-reversed coefficients), `msm` is the sum over the shorter list, curve groups are modules over the scalar field, the pairing is bilinear, Legendre symbols by Euler's criterion, `verify_proof` is the pairing equation |
| `co-circom/circom-mpc-vm/src/mpc/plain.rs`, `mpc/rep3.rs` | `CircomVm/Driver`, `CircomVm/Rep3` | debug assertions; Poseidon2 accelerator; formatting of logged strings |
| `co-circom/circom-mpc-vm/src/{mpc_vm,op_codes,stack,types,accelerator}.rs` | `CircomVm/Vm.lean` | log buffer, Poseidon2 accelerator, custom accelerators, traces, second run of a component, overflow of `usize` |
| `co-circom/circom-mpc-compiler/src/lib.rs` (code emission) | `CircomVm/Source.lean` | calls of user functions, parallel components, parsing and the circom front end |
| `co-circom/co-circom-types/src/lib.rs` (inputs) | `CoCircom/Input` | the readers of decimal and hexadecimal numbers (parameters), the order of iteration of maps, serialisation |
| `co-circom/co-circom-types/src/lib.rs` (witnesses), `co-circom/co-circom/src/lib.rs` | `CoCircom/Witness` | serialisation; `thread_rng` is an argument |
| `co-circom/co-plonk/src/{lib,types,round1,round2,round3,round4,round5,plonk}.rs` | `Plonk/Model` | the Keccak transcript (any hash function), JSON formats, parsing of the proving key, `rayon` |
| `co-circom/co-plonk/src/mpc/{plain,rep3,shamir}.rs` | `Plonk/ArrayProd`, `Plonk/Drivers` | points are abstract group elements |
| `co-noir/co-acvm/src/{solver,solver/assert_zero_solver,solver/memory_solver,solver/blackbox_solver}.rs` | `CoNoir/Acvm` | Brillig calls, black box functions other than RANGE, AND and XOR, predicates of memory operations, proof shares (`pss_store.rs`), several functions |
| `co-noir/co-acvm/src/mpc/{plain,rep3,shamir}.rs` (methods the solver uses) | `CoNoir/AcvmDrivers` | methods for Brillig and for black box functions |
| `co-noir/ultrahonk/src/decider/{univariate,types}.rs`, `decider/relations/*.rs`, `decider/sumcheck/*.rs`, `co-noir-common/src/barycentric.rs` | `Honk/{Univariate,Relations,Sumcheck}` | the variant with zero knowledge, the transcript (any function), the opening protocol |
| `co-noir/co-builder/src/keys/{plain_proving_key,proving_key}.rs`, `ultrahonk/src/oink/oink_prover.rs` (`compute_grand_product`, `compute_public_input_delta`, `compute_logderivative_inverses`) | `Honk/{Trace,Oink,Lookup}` | the construction of the circuit from ACIR, `compute_w4` (the wires are arbitrary), secret-shared lookup indices, commitments and transcript |
| `co-noir/co-ultrahonk/src/co_oink/co_oink_prover.rs` (`compute_w4`, `compute_logderivative_inverses`, `compute_grand_product`), `co-noir-common/src/mpc/{rep3,shamir}.rs` (the operations they use) | `Honk/CoOink` | not modelled: masking polynomials |
| `co-noir/co-ultrahonk/src/co_ultra_prover.rs`, `co_oink_prover.rs` (`prove` and its rounds), `co_decider/types.rs` (`from_memory_and_polynomials`) | `Honk/CoUltra` | not modelled: zero knowledge, memory records, the hash of the transcript; how the shared proving key is made |
| `co-noir/co-ultrahonk/src/co_decider/{univariates.rs,relations/*.rs,co_sumcheck/*.rs}`, `types_batch.rs` | `Honk/{CoRelations,CoSumcheck}` | not modelled: the variant with zero knowledge; the number of random pairs of Shamir that are prepared before the run (more are made when they run out) |
| `co-noir/ultrahonk/src/decider/shplemini/*.rs`, `decider_verifier.rs` (`pairing_check`), `co-noir-common/src/{lib.rs,utils.rs}` (`compute_opening_proof`, `commit`), `co-ultrahonk/src/co_decider/co_shplemini/*.rs`, `co_decider_prover.rs`, `co-noir-common/src/mpc/{rep3,shamir}.rs` (the operations they use) | `Honk/Shplemini`, `Honk/ShpleminiDrivers` | not modelled: the variant with zero knowledge (Libra, masking polynomial), the transcript (challenges are functions of what was sent) |
| `co-noir/co-builder/src/ultra_builder.rs` (filler gates, dummy lookup, `create_vk_barretenberg`), `types/plookup.rs` (the two dummy tables), `keys/plain_proving_key.rs` (`create_prover_instance`), `ultrahonk/src/{ultra_prover,ultra_verifier}.rs`, `oink/{oink_prover,oink_verifier}.rs`, `decider/{decider_prover,decider_verifier}.rs` | `Honk/{BuildFill,Ultra}` | not modelled: zero knowledge, memory records, the other tables, the hash of the transcript and of the key, the flat encoding of the proof |
| `co-noir/co-builder/src/ultra_builder.rs` (`create_circuit`, `init`, `build_constraints` for quads, big quads and ranges, `finalize_circuit`, `process_range_lists`, `assert_equal` and what they call), `co-builder/src/acir_format.rs` (`circuit_serde_to_acir_format` for `AssertZero` and `RANGE`) | `Honk/Build`, `Honk/BuildAcir` | not modelled: the other opcodes, lookup tables, ROM/RAM, the bounds of `u32`, shared witnesses; the rows of the other blocks are arbitrary |
| `mpc-net/src/lib.rs` (`join`) | `Net/Join`, `Net/Two` | `join3` and up |

Simplifications common to all of it: integer overflow panics and debug assertions are those of a release build; a
panic and a returned error both end the party's program (kept apart as `Err.panic` / `Err.err`);
square roots are an arbitrary function assumed correct (`HasSqrt`).
Ring widths are powers of two in the theorems that go through the logarithmic adders.

## 3. Plan per property

| id | modelled | proof |
|---|---|---|
| C01-C03 | share / combine functions, tape of dealer randomness as arguments or a sampling generator | ring identities, induction over lists |
| C04 | same functions, tape as uniform choice | explicit bijection between the tapes of two secrets with equal views, hence equal counts |
| C05-C07, C09-C10 | party programs over `Prog` | weakest-precondition calculus (`Net/WP.lean`), ring identities |
| C08 | vector programs | induction over lists |
| C11, C12 | `inv`, `div`, `sqrt` with `rand`, `mul_open` | as C07, plus case split on the opened value |
| C13, C14, C19 | composition of the above | wp calculus, induction on the exponent |
| C15 | generator state of three parties, ops = draws and forks | invariant by induction over op lists |
| C16 | `setup_prf`, `setup_bitcomp` | wp calculus |
| C17 | `Config`, steps | diamond property, random descent |
| C18 | `reshare_from_2_to_3_parties` | symbolic execution for each recipient |
| C20 | deep embedding of straight-line programs, interpreter into `Prog` and into plain values | induction over the program |
| C21 | views of circuits over tapes | induction over the circuit, unique tape for each view |
| C22 | history of draws | counterexample history (negation) and a `_partial` theorem for the histories where it holds |
| C23-C28 | adders on `BitVec`, `a2b`, `b2a`, `bit_inject`, comparisons | pure theorem about the adder (carry recurrence) + wp lifting |
| C29-C31 | binary ops | wp calculus, `BitVec` extensionality |
| C32-C34 | polynomial sharing with the code's Horner and Lagrange routines | Mathlib `Lagrange`, polynomial degree bounds; bijection for privacy |
| C35-C37 | n-party programs | n-party round lemma + polynomial identities |
| C38 | buffer of pairs | induction over op lists |
| C39-C41 | translation, evaluation, points | algebra |
| C42-C44 | ring versions over `BitVec w` | as the field versions |
| C45-C49 | ohv, LUT, permutations, radix sort | recursion on k, permutation algebra, stability argument |
| C60 | tables of points | the definitions for shared tables are over any module; sums over one-hot vectors |
| C61 | two threads per party as separate actors, start and result as messages between them | confluence: one interleaving in phases suffices |
| C50-C53, C62 | label algebra; circuit code as a free monad run on plain bits, at the garbler and at the evaluator; netlists | case analysis, a relational logic between two runs, induction over width, zero-one principle |
| C63-C65 | three-party garbling: party 0 evaluates, party 1 sends the blocks, party 2 a digest; batch and streamed | the circuit logic of C50-C53 run in lock step with the messages; the streamed form gate by gate with pending messages |
| C66-C70 | the arithmetic circuits (restoring division, chunking, slices) and the blueprint that wraps a circuit: inputs, evaluation, masked outputs | circuit lemmas over bit lists read as numbers; one lemma for the blueprint, instantiated per operation; digits are specified by length, range and value only (`Spec/Digits`) |
| C71-C73 | Poseidon2: optimised layers, all variants of the permutation, pool of precomputed powers | matrices as specification; the linear layers commute with any linear sharing; the loops keep a relation between shares, values and position in the pool |
| C74-C75 | Merkle trees over Poseidon2 in place, on all three kinds of values; witnesses and their verification | invariant: the vector holds the padded layer; top-down specification of the root; induction over the path for soundness up to collisions |
| C76 | roots of unity; witness maps over an abstract driver, instantiated with the clear, Rep3 and Shamir drivers | orders in the multiplicative group; transforms as evaluation / interpolation; refinement of every driver operation |
| C77 | `prove_inner` over two networks | `Spec₂` composition; the proof as an explicit function of key, assignment and random values |
| C78 | trusted keys, pairing equation | scalars of the proof points; Lagrange polynomials of the doubled domain for snarkjs keys |
| C79 | the same | explicit permutation of the random values |
| C80 | plain driver of the circom VM | case analysis on the shifted representative |
| C81, C82 | Rep3 driver of the circom VM, as programs over two networks; reference driver on marked clear values | refinement of every operation, by the specifications of C06-C29, C66 |
| C83, C84 | the circom VM over an arbitrary driver (`Verif/CircomVm/Vm.lean`) | logical relation between the VM over two drivers (`VmSim.lean`), instantiated with Rep3/marked and plain/marked |
| C85 | statements and the code the compiler emits for them (`CircomVm/Source.lean`), runs checked by `guard` | big-step semantics of statements, complete and sound for the VM loop (`SourceRun.lean`); simulation of the marked by the plain big-step semantics, with the untaken secret branches changing no value (`SourceRef.lean`) |
| C86 | big-step meaning of statements over the prime field (`Spec/Circom.lean`), independent of the VM | the plain instance of the semantics of C85 is equivalent to it, in both directions (`SourceSpec.lean`); the plain VM passes the checks of C85 |
| C87 | the assignments and constraints of the circomlib templates (`Spec/Accel.lean`) | characterisation of the accelerators of the plain driver; the marked run succeeds when the plain one does, then the relation of C84 |
| C88 | JSON values, splitting, merging of maps; the meaning of an input is a relation (`Spec/Input.lean`) | the parser decides the relation (induction over nested arrays); the maps of the parties represent one marked map, preserved by insertion and merging |
| C89 | `generate_witness_rep3` on merged inputs | the merged maps are inputs for the relation of C84; the run does not depend on the order of the inputs; composition with C85, C86 |
| C90 | shared witnesses in four forms, `uncompress_shared_witness`, `translate_witness` with its preprocessing, `unbatch` | one predicate for the four forms (`Spec/Witness.lean`); dealing gives it (C01, C02), expansion and translation start from it (C08, C37, C39) |
| C91 | the phases of `co-circom` one after the other | composition of C89, C90 and C78; the second phase is stated for all generator states |
| C92 | the solver loop, `assert_zero`, memory, RANGE, AND, XOR with the plain driver | what satisfies the opcodes is said in `Spec/Acir.lean`; induction over the opcodes with "every extension of the inputs that satisfies the rest extends the map" and its converse |
| C93 | the same loop with the Rep3 driver | simulation (`DriverSim`): each method of the driver maps representations to representations; one induction over the opcodes for any such driver |
| C94 | plain solver | false of the code (F28); the exact set of unchecked constraints is characterised |
| C95 | the loop with the Shamir driver | the simulation of C93; false for products with a coefficient (F29) |
| C96 | prover rounds over any driver and the verifier; reference driver on values in the clear | polynomial identities: coefficient lists as polynomials, vanishing on the domain gives divisibility, pairing equation from the evaluation of the quotient identities at the secret |
| C97 | prover over the plain driver with an arbitrary random sequence | the rounds as a simulation between any driver and the reference driver of C96 (`Plonk/Sim`), counting random values |
| C98 | Rep3 driver, eight networks with forked states | the same simulation, with a two-level specification: calls on one network, and jobs on all networks (`Net/ManyE`, `Plonk/NetSim`) |
| C99 | Shamir driver, forks that take preprocessed pairs | the same simulation; the invariant counts the pairs left in the buffer |
| C100 | the verifier of C96; algebraic provers (`Spec/PlonkSound`): polynomials sent in five rounds, small sets of lucky challenges for each round | the pairing check is a polynomial identity at the secret; peel off the challenges one by one (polynomials with few roots): the openings are right, the quotient identity holds, gates and permutation hold on the domain, the grand product gives equal products, and these the copy constraints |
| C101 | `Univariate` in evaluation form with the four algorithms of `extend_from` and `evaluate` (`Honk/Univariate`) | recurrences for 2, 3, 4 values; Lagrange interpolation otherwise |
| C102 | the nine relations twice, prover and verifier (`Honk/Relations`); the gate equations over any algebra (`Spec/Honk`) | ring identities; degrees of polynomials in one variable |
| C103 | gate separator, rounds, virtual rounds, verifier (`Honk/Sumcheck`) | the lists hold the partially evaluated table; the univariate of a round is a polynomial whose values at 0 and 1 add up to the sum that is left and whose value at the challenge is the next sum |
| C104 | the verifier of C103, any prover | a wrong univariate agrees with the right polynomial in at most 7 points; a sum of zero is a polynomial identity in the two batching challenges |
| C105 | trace, copy cycles, permutation columns (`Honk/Trace`), grand product and public input delta (`Honk/Oink`); assignments (`Spec/HonkCircuit`) | the mapping is a permutation of the cells whose cycles are the copy classes; the products telescope |
| C106 | as C105, any permutation column | equal products for generic challenges make the two lists of (value, label) pairs permutations of each other (`Honk/PermLemmas`); following labels shows that cells of a class are equal and tagged lists are permutations |
| C107 | lookup tables, read counts, inverses (`Honk/Lookup`); what a row looks up (`Spec/HonkLookup`) | every read adds one fraction on either side |
| C108 | the relations, any inverses | the numerator of the sum of fractions is a nonzero polynomial if a pole on the left is missing on the right |
| C109 | C104, C106 and C108 together | composition; the gates do not use the later columns |
| C110 | `compute_w4` in the clear and for both drivers (`Honk/CoOink`); `withRecords` (`Spec/HonkMemory`) | linearity of sharings, induction over the records |
| C111 | `compute_logderivative_inverses` of the parties (`Honk/CoOink`) | simulation of each step; masks cancel |
| C112 | `compute_grand_product`, `array_prod_mul` of the parties | prefix products by random telescoping; equal to the plain fold |
| C113 | `create_circuit` and everything it calls for arithmetic constraints and range checks (`Honk/Build`, `Honk/BuildAcir`); `IsTrace` (`Spec/HonkBuild`), `Execution` (C109), `Satisfies` (`Spec/Acir`) | invariant of the builder (tags, range lists, real indices); the gates of an expression add up to it; a sorted list with steps of at most 3 from 0 to the bound that is a permutation of the tagged variables bounds them; limbs recompose |
| C114 | `create_circuit` and `create_prover_instance` with two witnesses | lock-step simulation of the two runs (`Sim`, `Same`) |
| C115 | `create_circuit` and `create_prover_instance` with a witness that satisfies the program | invariant of the builder (`Honest`) that all rows so far hold for the values so far; sorting and tag permutation at the end (`HFinal`, `tags_honest`) |
| C116 | all nine relations on shares (`Honk/CoRelations`), batches, accumulators, rounds and openings of the collaborative sumcheck (`Honk/CoSumcheck`), for both drivers | a driver keeps an invariant and its operations match the clear ones (`SumSim`); each relation gives shares of the value of the subrelation at every point; the accumulators then hold the sums of C103 over all edges; the run follows the invariant of the plain prover |
| C117 | batching, folding, quotients and the verifier with its pairing check (`Honk/Shplemini`), one generic prover for the plain and the collaborative case; reference string, commitments, shifted columns (`Spec/HonkOpening`) | values of all polynomials at all points; the quotients are exact divisions (`quotients_eval`); the verifier recovers the positive values from the negative ones by the folding identity; the exponent of the pairing check is then a ring identity |
| C118 | the same prover with the drivers of Rep3 and Shamir, and `CoDecider::prove` (`Honk/ShpleminiDrivers`) | every local step maps shares to shares of the plain result (`PcsSim`); what is opened is equal for all parties, so the challenges are; C116 and C117 give the two parts |
| C119 | the circuit with all its blocks (`Honk/BuildFill`), `create_prover_instance` with and without a witness (`Honk/Ultra`) | the filler rows and the dummy lookup hold by computation with the values that the builder gives them; C114 and C115 for the rest |
| C120 | `UltraHonk::prove` and `verify` with their rounds in order, `create_vk` (`Honk/Ultra`) | the run of the prover is taken apart (`UltraRun`); the commitments of key and proof are those of one table, which C119 shows to be satisfied; C103 and C117 then give the verdict |
| C121 | `CoUltraHonk::prove_inner` and `CoOink::prove` with all rounds in order (`Honk/CoUltra`) | one simulation for both drivers: the Oink rounds open the commitments of the plain table and leave shares of its completed columns (`coOink_is`), then `decider_is` of C118; the verifier sees the same commitments as in C120 |
| C122 | the verifier of C120 and `create_vk` (`Honk/Ultra`) | the verdict is taken apart: the number of public inputs is that of the key and the sumcheck verifies with the term of the public inputs; the columns of the key are those of the circuit with all its blocks (`FullTable`), so C113 applies |
| C123 | the verifier of the opening (`Honk/Shplemini`) | the pairing check is an equation in the exponent (`verify_exponent`), so an identity of polynomials unless the secret is a root; at `z` it says that the quotient is right, so all claimed values of the folded polynomials are true (`quotient_sound`); the relation of the positive values is then the folding identity at `r`, so every polynomial is the fold of the one before, and the last is the value of the extension (`folds_extension`); the powers of `ρ` separate the columns |
| C124 | the verifier of C120, with every point the commitment to a polynomial | if the claims are true they are the values of the columns (`claims_columns`) and C122 applies, if not C123 does; a grand product that does not begin with zero is a false claim. Partial: polynomials with more coefficients than the circuit has rows are missing |
| C55 | `inv`, `inv_vec`, `div` for Shamir | as C11 with the round lemma |
| C56 | views of `open` and `mul_open` | uniqueness of interpolation; witness for the negation |
| C57 | conversion point → coordinates, zero test, on Mathlib's curve points | specification of every step, addition formulas from Mathlib's group law |
| C58 | conversion coordinates → point | as C57; blinding point as a function of the generators |
| C59 | first message of the conversion | bijection for one point; witness for the negation for vectors |
| C54 | promote + conversion | negation with witness and `_partial` theorem |

## 4. Findings: places where the code and the natural property disagree
* **F1 (C22)** `b2a` and `y2a` advance the first bit-composition generator at parties 1 and 2 only
  (`rep3/conversion.rs`); party 0's copy stays behind, so a later `generate_shared` returns different values.
* **F2 (C59)** `point_share_to_fieldshares_pre_many` (`rep3/conversion.rs:933`) uses one mask for all elements of a batch,
  so a party learns differences of coordinates that should be hidden. Correctness is unaffected. Witness: `C59_false_batch`.
* **F3 (C47)** `read_multiple_public_lut_low_depth` iterates over the longest table and indexes every table:
  with tables of different size it panics, although its doc promises implicit zero padding.
* **F4 (C52)** `half_adder_const` returns carry = `a` also for constant bit 0; the constant adder is wrong for even
  constants. The only caller uses the constant 15.
* **F5 (C54)** promoting the public points `G` and `2G` produces shares on which the conversion
  to coordinates and the zero test answer wrongly. Witnesses: `C54_false_twice_generator`, `C54_false_generator`.
* **F6 (C46)** tables of length 1 make `k = 0` and underflow in the one-hot construction. Witness:
  `C46_public_length_one_false`.
* **F7 (C49)** radix sort with bit size 0 still orders by bit 0 of public inputs.
* **F8 (C46)** the plain table provider panics on out-of-range writes although the trait says they are ignored.
* **F9 (C56)** Shamir `mul_open`/`mul_open_vec` (and so `inv`, `inv_vec`, `div`) open the product polynomial of
  degree `2t` as it is. The opened shares determine the product of the two polynomials, which says more about the
  factors than their product. Witness: `C56_false_mul_open`.
* **F10 (C46)** reading a *public* table of length two through the Rep3 provider always panics: the index type for one bit is
  `Bit`, and the low-depth lookup rounds the number of bits up to two and asserts that the type has them. Witness:
  `C46_public_length_two_false` (all inputs, all executions).
* **F11 (C60)** `read_public_luts` for points computes the length of the one-hot vector from `luts.len()`, the number of
  tables. Witness: `C60_batch_false`.
* **F12 (C46)** a Rep3 write with an index outside the table is reduced modulo the next power of two and can overwrite an
  entry, the trait's documentation says it is ignored. Witness: `C46_write_out_of_range_false`.
* **F13** `decompose_arithmetic_to_other_field` (`rep3/yao.rs:1046-1078`) uses the bit size of the source field for the
  target field; the two must have the same bit size (not modelled).
* **F14 (C62)** netlist verification does not compare wire numbers with the number of wires: `1 -> 7` with two wires passes
  and evaluation panics with an index out of bounds.  The levelled evaluation (dead code) panics for a netlist without a
  linear gate before its first AND level: the levels are renumbered by position, and AND gates end up in a linear level.
* **F15 (C69)** the scalar `ring_div_by_public_to_limbs` returns the first two limbs of the vector form; with more than one
  limb both are limbs of the quotient and the remainder is lost (`C69_div_to_limbs_drops_remainder`).  It has no callers
  in the workspace.
* **F16 (C71)** states of two and three elements are permuted with a built-in diagonal (`poseidon2_permutation.rs:126-145`); the diagonal
  in the parameters is compared in debug builds only. `C71_diagonal_ignored`. `Poseidon2Params::new` accepts `T = 0`, for
  which every permutation panics (`C71_empty_state`). The direct Rep3 permutation always does one external round first, so it
  needs at least one (`C72_direct`); with none it panics on the missing constants.
* **F17 (C74, C75)** a tree with one leaf passes the length check, but the padded vector is empty and `input[0]` panics, unless
  compression fills the state (`C74_single_leaf`); in that case the witness is empty and its verification panics on
  `witness[0]` (`C75_verify_compression`).  Verification does not know the depth: a value above the leaves is accepted with a
  shorter path (`C75_inner_node_accepted`); callers have to compare the length of the path themselves.  An index beyond the
  leaves is only noticed by a debug assertion.
* **F18 (C77, C78)** for the largest domain of the field the Circom witness map shifts by the square of a non-residue instead of a
  root of twice the order, as snarkjs does (`C76_generators`); C78 therefore covers the smaller domains.  A constraint system
  without any instance variable passes the length checks and panics on `public_inputs[1..]` (`C77_no_inputs`); Circom systems
  always have the constant.
* **F19 (C81)** the circom VM compares a public with a secret value by the negated comparison with the operands exchanged
  (`rep3.rs:268-350`: `lt` calls `ge_public`, `le` calls `gt_public`, `gt` calls `le_public`, `ge` calls `lt_public`).  The
  operands are already exchanged, so the comparison must not be negated: the result is right for different values and
  wrong for equal ones (`C81_compare_equal`).
* **F21 (C81)** calls outside `supported`: the exclusive or (or the disjunction) of two secrets may be at least `p`; the plain
  driver reduces it, the shared conversion from binary does not accept it.  The remainder of a secret modulo the public
  one panics.  A public value shifted left by a secret uses the low eight bits of the exponent only.  Shifts of a
  secret by a secret, right shifts of a public value by a secret and powers with a secret exponent panic.  Integer
  division by a public zero panics; field division by a public zero is an error.
* **F20 (C85)** an `if` without else branch (an empty `else {}` counts as none) whose condition is public and false jumps behind
  its `EndTruthyBranch` and leaves its entry on the stack of open branches.  Outside of secret branches this is harmless.
  Within a secret branch the next `EndTruthyBranch` closes the wrong entry and jumps over the else branch of the secret `if`:
  the three parties compute a wrong witness without an error (`C85_skipped_branch`).
* **F22 (C85)** both branches of a secret `if` are executed, and what is not an assignment takes effect: an assertion in the
  branch that is not taken is checked (`C85_untaken_assert`), an integer division or remainder by zero there panics
  (`C85_untaken_division`; the field division is guarded).  A loop counter which is changed within a secret branch becomes
  secret and the loop fails at its condition.
* **F23** the code behind an early return within a secret branch of a function is still executed, and a recursive function
  that is called within a secret branch does not terminate (not modelled in C85; the VM model of C83, C84 includes calls).
* **F24** the compiler has `todo!()` for the operators `!` and `~` on field elements.
* **F25 (C80, C86)** the plain driver's `<<` is the multiplication by a power of two modulo `p`, `>>` fails for shifts of 2^64 or
  more, and `&&` and `||` treat only one as true (other values than bits are refused by a debug assertion, release builds
  compute `2 && 1 = 0`) and fail for values of 2^64 or more.  The meaning in `Spec/Circom.lean` follows the driver.
* **F26 (C87)** an accelerated component does not check the constraints of its template.  `Num2Bits(n)` of an input with more
  than `n` bits succeeds with signals that do not satisfy `lc1 === in` (`C87_num2bits_constraints`); without the accelerator
  the assertion of the template fails.
* **F27 (C89)** `generate_witness_rep3` opens as many inputs as the merged map has public entries, and the VM ignores entries
  which the circuit does not have.  `merge_input_shares` accepts any entry whose name begins with a public name.  A user who
  adds such an entry (`"a": ["1"]` where `a` is a scalar, or one more element of an array) makes the parties open one
  more value of the witness, which is a secret input of another user (`C89_extra_public_entry`).
* **F28 (C94)** the ACVM solver accepts a constraint whose witnesses are all known whatever its value is: `solve_assert_zero` has no
  check (`C94_constraint_ignored`, `C94_satisfied_false`), also for public witnesses.  Values read from memory replace known witnesses
  without comparison (`C94_read_overwrites`).  A wrong input is noticed only when the proof does not verify.
  The solver also refuses a constraint in which one unknown occurs twice (`x + x = 4`), and returns the outputs in reversed order.
* **F29 (C95)** `ShamirAcvmSolver::solve_mul_term` ignores the coefficient `c` if one factor is public and the other one shared: from
  `c * x * y = z` the parties compute `z = x * y` (`C95_coefficient_false`).  No error is raised.
* **F30 (C96)** the PLONK prover splits a quotient with up to `3 n + 6` coefficients that it interpolates on `4 n` points: with `n < 6`
  (a domain of 4 points or fewer) the quotient wraps around and the proof is wrong in general.  Without public inputs `compute_t` indexes
  `lagrange[0]`, which exists only if the key has one Lagrange polynomial for no public input, and then it subtracts
  `L_0 · a_0`, which the verifier does not.  C96 assumes eight gates and one public input.
* **F31 (C97)** the plain PLONK driver calls `unwrap` on the inversion of its random values in `array_prod_mul`: with a random zero (one in
  the field size per value) it panics (`C97_zero_random`); the Rep3 and Shamir drivers return an error instead.  The Shamir prover's budget
  `domain_size * 222 + 15` of preprocessed pairs is exactly the sum of all its draws and forks (`Sim.prove`).
* **F32 (C100)** the verifier's challenge `u` is the hash of the two opening commitments only, not of the transcript before them (snarkjs does
  the same).  A prover can therefore fix `u` before the evaluations and `v`.  The set of lucky values of `u` in C100 depends on all messages,
  so the usual reading of the bound (“`u` is drawn after everything else”) does not apply to this hash call without a further argument.
* **F33 (C101)** `Univariate::evaluate` treats only the point 0 separately: at the points `1, …, SIZE - 1` it calls `unwrap` on the inverse of
  zero.  The sumcheck verifier therefore panics, instead of accepting or rejecting, if a round challenge is one of these values
  (`C101_evaluate_panics`).
* **F34 (C103)** the permutation relation is skipped on an edge if `z_perm` equals `z_perm_shift` at both ends.  That does not imply that the
  rows are in no copy constraint: if a variable occurs in two wires of one row and nowhere else, the two cells form a cycle of their own
  and `z_perm` does not change, but along the edge the relation is not zero.  Then the univariate sent is wrong and the honest proof is
  rejected (`C103_rejected`).  The same shortcut is in Barretenberg; it needs a row all of whose other wires are in trivial cycles, next to
  another such row.
* **F35** `check_sum` of the sumcheck verifier multiplies only the first of the two values by the padding indicator: in a padded round
  it requires that the second value is zero.  This is stricter than intended, and harmless for proofs padded with zeros.
* **F36 (C111, C112)** two differences between the provers with and without shares.  `inv_many_in_place_leaking_zeros` opens `r·x` and takes
  every zero for a zero `x`: if the random `r` is zero, a nonzero entry is silently replaced by zero instead of raising an error
  (`C111_zero_random`; the proof is then rejected).  And where a factor of a denominator of the permutation column is zero, the prover in
  the clear leaves the zero in place and returns a column, but the parties return an error (`C112_zero_denominator`).
* **F37 (C113)** notes on the circuit builder.  An `AssertZero` whose linear terms cancel, or that has only a constant, makes circuit creation
  panic instead of being ignored or reported (`C113_cancelling`).  `create_new_range_constraint` asserts `found_tag`, which is never set, so
  the assertion fails whenever it is reached.  `create_bool_gate` ignores the result of its index check.  Without a witness `assert_equal`
  does not compare the tags, so that two range-checked variables of different bounds get the tag of the first; the circuit then
  becomes unsatisfiable rather than unsound.
* **F38 (C116)** the plain prover leaves out the permutation and lookup relations on edges where witness columns make it look unnecessary
  (F34); the collaborative prover cannot look at shares and never leaves them out.  So the two produce different proofs for some satisfied
  tables, and there only the collaborative one is accepted (`C116_differs`).  The constant `CRAND_PAIRS_FACTOR` of the lookup relation is 2,
  but it uses three pairs per point, so Shamir parties make random pairs during the sumcheck.
