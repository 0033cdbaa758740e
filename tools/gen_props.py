#!/usr/bin/env python3
"""Regenerates /verif/properties.jsonl.  Edit the list below, then run this file."""
import json, os
M = "mpc-core/src/protocols/"
P = []
def p(id, title, statement, quantifier, why, anchors):
    P.append(dict(id=id, title=title, statement=statement, quantifier=quantifier,
                  why_tests_cant=why, anchors=anchors))

p("C01", "Rep3 field sharing round-trips",
  "Sharing a field element (or a vector of them) into three replicated shares and combining the three shares returns exactly the original element(s), whatever the randomness was; the maybe-shared variant keeps absent entries absent and public positions aligned.",
  "every field, every secret / every vector of secrets of any length, every random tape",
  "The field has about 2^254 elements and the randomness is unbounded; tests sample a few secrets and one seed.",
  [M+"rep3.rs: share_field_element, share_field_elements, share_maybe_field_elements, combine_field_element, combine_field_elements"])
p("C02", "Rep3 additive and seeded sharing round-trips",
  "Additive sharing and compressed (seed) sharing reconstruct the secret: expanding the seeds at the parties and combining gives the original vector, and a replicated seeded share whose two halves expand to different lengths is rejected instead of silently truncated.",
  "every secret vector, every seed expansion function, every pair of seeds",
  "Depends on all seeds and lengths.",
  [M+"rep3.rs: share_field_element_additive, share_field_elements_seeded, SeededType, ReplicatedSeedType"])
p("C03", "Binary and curve-point sharing round-trips",
  "Sharing a value by XOR, and sharing a curve point, then combining the three shares returns the original value.",
  "every bit-string of the share width / every group element, all randomness",
  "Infinite/huge domain.",
  [M+"rep3.rs: share_biguint/share_binary, share_curve_point, combine_binary_element, combine_curve_point"])
p("C04", "A single Rep3 share reveals nothing",
  "The share given to any single party has the same distribution for every secret: for each party, each possible share value and any two secrets, exactly as many random tapes of the dealer produce that share for one secret as for the other.",
  "every finite field, both secrets, each party, each view",
  "A distributional statement over all randomness; no finite number of runs decides it.",
  [M+"rep3.rs: share_field_element, share_binary, share_curve_point"])
p("C05", "Shares stay replicated",
  "After any operation the second half of each party's share equals the first half held by the previous party, so any two parties hold the whole secret and all parties agree on it.",
  "every operation of the arithmetic and binary protocols, every input, every state",
  "Invariant over arbitrary operation histories.",
  [M+"rep3/arithmetic.rs", M+"rep3/binary.rs", M+"rep3/conversion.rs"])
p("C06", "Local linear operations are correct",
  "Addition, subtraction, negation, multiplication by a public value, adding/subtracting a public value on either side and promoting a public value give shares of exactly the corresponding plain result without any communication.",
  "every field, all operands, all valid sharings",
  "Party-specific cases (only two of three parties change a share) must line up for all values.",
  [M+"rep3/arithmetic.rs: add, sub, add_public, sub_shared_by_public, sub_public_by_shared, neg, mul_public, promote_to_trivial_share"])
p("C07", "Secret multiplication is correct",
  "Multiplying two shared values yields a fresh valid sharing of the product at all three parties, for all correlated randomness and all message interleavings.",
  "every field, operands, sharings, correlated generator states, schedules",
  "Needs every masking value and every schedule.",
  [M+"rep3/arithmetic.rs: mul, add_mul", M+"rep3/network.rs: reshare"])
p("C08", "Vector multiplication is element-wise multiplication",
  "mul_vec returns, position by position, sharings of the products and keeps the length; add_mul and local_mul_vec + reshare_vec agree with it; a peer message of the wrong length is an error, never a truncated result.",
  "vectors of every length, all values, all randomness",
  "Unbounded lengths.",
  [M+"rep3/arithmetic.rs: mul_vec, local_mul_vec, reshare_vec"])
p("C09", "Opening returns the secret to everybody",
  "open and open_vec make all three parties learn the same value(s), which is the shared secret.",
  "all valid sharings, all schedules",
  "All values and interleavings.",
  [M+"rep3/arithmetic.rs: open, open_bit, open_vec"])
p("C10", "Multiply-and-open returns the product to everybody",
  "mul_open and mul_open_vec return to every party the plain product of the two secrets.",
  "all sharings, randomness, schedules",
  "All values and interleavings.",
  [M+"rep3/arithmetic.rs: mul_open, mul_open_vec"])
p("C11", "Inversion and division",
  "inv on a shared value returns either an error at all three parties or a valid sharing of the multiplicative inverse; it never returns a wrong inverse; with secret zero it always errors; with a nonzero secret it errors only when the jointly drawn random mask is zero. div, div_public_by_shared, div_shared_by_public and the vector form behave accordingly.",
  "every field, secret, random mask, schedule",
  "The failing mask has probability 2^-254 and consistency of failure across parties cannot be sampled.",
  [M+"rep3/arithmetic.rs: inv, inv_vec, div, div_shared_by_public, div_public_by_shared"])
p("C12", "Square root",
  "sqrt of a shared value returns, whenever it succeeds, a sharing of a value whose square is the secret, and fails at all parties or at none.",
  "every field, secret, masks, and every square-root subroutine that is correct",
  "All field elements and masks.",
  [M+"rep3/arithmetic.rs: sqrt"])
p("C13", "Oblivious selection",
  "cmux returns the truthy input when the shared condition is one and the falsy input when it is zero; the vector form does it position-wise.",
  "all inputs, conditions, randomness, lengths",
  "All values.",
  [M+"rep3/arithmetic.rs: cmux, cmux_vec", M+"rep3/binary.rs: cmux, cmux_many"])
p("C14", "Exponentiation by a public exponent",
  "pow_public computes the exact power for every public exponent (exponent zero gives one).",
  "every base, every exponent",
  "Square-and-multiply loop over unbounded exponents.",
  [M+"rep3/arithmetic.rs: pow_public", M+"rep3_ring/arithmetic.rs: pow_public"])
p("C15", "Correlated randomness never drifts apart",
  "Along any sequence of randomness requests and state forks, the three parties' generators stay pairwise synchronised, so at every point the masks the parties add sum to zero (XOR to zero, sum to the neutral point).",
  "every finite history of draws and forks of any types, every generator",
  "Histories are unbounded; a drift shows only as a wrong result much later.",
  [M+"rep3/rngs.rs: Rep3Rand, Rep3CorrelatedRng::fork", M+"rep3.rs: Rep3State::fork"])
p("C16", "State setup synchronises all generators",
  "After Rep3State::new has run at the three parties over the network, the pairwise seeds and the bit-composition seeds agree exactly as later protocols require, under every interleaving of the setup messages.",
  "every choice of fresh seeds at the parties, every schedule",
  "Interleavings and seeds.",
  [M+"rep3.rs: Rep3State::new, setup_prf, setup_bitcomp"])
p("C17", "Outcome does not depend on the schedule",
  "For parties that are deterministic given their inputs and seeds and communicate over reliable FIFO channels, if one interleaving lets all parties finish then every interleaving is finite, never deadlocks and produces identical results and transcripts.",
  "every program of sends and receives, every number of parties, every interleaving",
  "The number of interleavings is exponential.",
  ["mpc-net/src/lib.rs: Network", M+"rep3/network.rs", M+"shamir/network.rs"])
p("C18", "Resharing from two to three parties",
  "When the recipient has no input and the two others hold a replicated sharing, resharing gives all three parties a valid sharing of the same secrets, for every choice of the recipient; a non-recipient without input is an error.",
  "each recipient, all vectors, all randomness",
  "All values, all three recipients.",
  [M+"rep3/arithmetic.rs: reshare_from_2_to_3_parties"])
p("C19", "Arithmetic XOR of shared bits",
  "arithmetic_xor of two shared bits gives a sharing of their exclusive or, and in general a sharing of x+y-2xy; the vector form is position-wise.",
  "all inputs and randomness",
  "All values.",
  [M+"rep3/arithmetic.rs: arithmetic_xor, arithmetic_xor_many"])
p("C20", "Every MPC program computes its plain counterpart",
  "Any program built from linear operations, multiplication, selection, exponentiation and opening, run by three parties on valid shares, ends at all parties with valid shares of exactly the values the same program computes in plain.",
  "every program (any size), every input, every schedule and randomness",
  "Quantifies over programs.",
  [M+"rep3/arithmetic.rs"])
p("C21", "Arithmetic circuits leak nothing to one party",
  "In any circuit of linear gates and multiplications the messages a single party receives have the same distribution for any two sets of inputs that give that party the same shares.",
  "every circuit, each party, all inputs, over the uniformly random tape of the other parties",
  "Distributional statement for all circuits.",
  [M+"rep3/arithmetic.rs: mul, mul_vec", M+"rep3/rngs.rs: masking_field_element"])
p("C22", "Common randomness agrees at all parties",
  "generate_shared returns the same value at the three parties.",
  "every history of protocol operations before the call",
  "Depends on the history; it fails only after particular earlier operations.",
  [M+"rep3/rngs.rs: generate_shared", "co-noir/co-acvm/src/mpc/rep3.rs: common_rng_seed"])
p("C23", "Shared binary addition modulo p and modulo 2^k",
  "The logarithmic-depth adders applied to XOR-shared summands give XOR-shares of the sum modulo p (inputs below p) or of the plain sum / the sum modulo 2^k; the subtractors give the difference together with the correct borrow information.",
  "every modulus, every width satisfying the documented contract, all inputs",
  "Carry propagation over all widths and inputs.",
  [M+"rep3/detail.rs: low_depth_binary_add_mod_p, low_depth_binary_add, low_depth_binary_sub, low_depth_binary_sub_p", M+"rep3_ring/detail.rs"])
p("C24", "Arithmetic to binary conversion",
  "a2b of a shared field element yields XOR-shares of its canonical representative in [0,p); the vector form is position-wise.",
  "every prime, every element, every randomness, every width meeting the contract",
  "Wrap-around cases depend on the individual shares.",
  [M+"rep3/conversion.rs: a2b, a2b_many, a2b_selector"])
p("C25", "Binary to arithmetic conversion",
  "b2a of XOR-shares of an integer below p yields a valid sharing of that integer as a field element; converting to binary and back is the identity.",
  "every prime, every integer below p, all randomness",
  "All values and masks.",
  [M+"rep3/conversion.rs: b2a, b2a_many, b2a_selector"])
p("C26", "Bit injection",
  "bit_inject turns an XOR-shared bit into a valid arithmetic sharing of 0 or 1 with the same meaning; vector forms are position-wise.",
  "every field, each bit sharing, all randomness, all lengths",
  "All masks and lengths.",
  [M+"rep3/conversion.rs: bit_inject, bit_inject_many, bit_inject_from_bits"])
p("C27", "Comparisons agree with integers",
  "lt, le, gt, ge and their public variants return shares of the truth value of comparing the canonical representatives in [0,p) as integers.",
  "every prime and width meeting the contract, all operands including equal ones and zero, all randomness; states set to either conversion (direct, or garbled circuits, the default)",
  "Boundary cases across 2^254 values.",
  [M+"rep3/arithmetic.rs: lt, le, gt, ge, *_public", M+"rep3/detail.rs: unsigned_ge*"])
p("C28", "Equality and zero tests",
  "eq, neq, is_zero and their public and vector variants return shares (or the opened bool) of the exact truth value.",
  "all operands, all randomness, all lengths; states set to either conversion (direct, or garbled circuits, the default)",
  "False positives would need special values.",
  [M+"rep3/arithmetic.rs: eq, eq_public, neq, is_zero, eq_bit_many", M+"rep3/binary.rs: is_zero, is_zero_many"])
p("C29", "Bitwise operations on XOR shares",
  "xor, or, and, their public variants, left/right shifts and the select operation give XOR shares of the bitwise result.",
  "all widths, all operands, all randomness",
  "All values.",
  [M+"rep3/binary.rs", M+"rep3_ring/binary.rs"])
p("C30", "OR-tree",
  "or_tree over any non-empty list of shared bits yields shares of the disjunction of all of them, for every list length (odd or even).",
  "lists of every length",
  "Tree shape depends on the length.",
  [M+"rep3/binary.rs: or_tree", M+"rep3_ring/binary.rs: or_tree"])
p("C31", "Secret shift amounts",
  "shift_l_public_by_shared multiplies a public value by 2^s for a shared s; it is exact for all shift amounts below 256.",
  "all public values and shift amounts; states set to either conversion (direct, or garbled circuits, the default)",
  "All values.",
  [M+"rep3/binary.rs: shift_l_public_by_shared"])
p("C32", "Shamir sharing round-trips from every quorum",
  "Combining any list of more than t consistent shares at pairwise distinct points returns the secret, too few shares is an error; sharing vectors and points behaves the same.",
  "every field, secret, degree, polynomial randomness, set of parties",
  "All subsets, degrees and randomness.",
  [M+"shamir.rs: share_field_element, combine_field_element, share_field_elements, combine_field_elements, share_curve_point, combine_curve_point"])
p("C33", "t Shamir shares reveal nothing",
  "Any t of the shares produced by a degree-t sharing have a distribution that does not depend on the secret.",
  "every finite field with enough points, every t, every set of t parties, any two secrets",
  "Distributional statement.",
  [M+"shamir.rs: share"])
p("C34", "Shamir linear operations and promotion",
  "add, sub, neg, multiplication by a public value, adding a public value and promoting a public value give degree-t sharings of the plain result.",
  "all n, t, operands, sharings",
  "All values.",
  [M+"shamir/arithmetic.rs"])
p("C35", "Shamir multiplication",
  "mul and mul_vec (local product followed by king-based degree reduction) give every party a degree-t share of the product, for all preprocessing randomness and every schedule.",
  "all n >= 2t+1, operands, sharings, double sharings, schedules",
  "All n and t.",
  [M+"shamir/arithmetic.rs: mul, mul_vec", M+"shamir/network.rs: degree_reduce, degree_reduce_many"])
p("C36", "Shamir opening",
  "open, open_vec, mul_open return the same correct value to all n parties.",
  "all n, t, sharings, schedules",
  "All n, t.",
  [M+"shamir/arithmetic.rs: open, open_vec, mul_open", M+"shamir/network.rs: broadcast_next"])
p("C37", "Double sharings are consistent",
  "Every pair produced by preprocessing is a degree-t and a degree-2t sharing of the same value.",
  "all n, t, all random tapes",
  "Depends on all parties' contributions.",
  [M+"shamir/rngs.rs: random_double_share, buffer_triples"])
p("C38", "Preprocessing pairs are used once",
  "get_pair and fork hand out every buffered pair at most once and the same pair at every party, refilling on demand; fork with too large an amount fails.",
  "every history of get_pair and fork calls",
  "Histories are unbounded.",
  [M+"shamir.rs: ShamirState::get_pair, fork", M+"shamir/rngs.rs: fork_with_pairs"])
p("C39", "Rep3 to Shamir translation",
  "Translating a replicated sharing (or an additive sharing) of a value gives a degree-1 Shamir sharing of the same value among three parties.",
  "every field, all sharings",
  "All values.",
  [M+"bridges/rep3_to_shamir.rs"])
p("C40", "Polynomial evaluation on shares",
  "eval_poly on shared coefficients gives shares of the polynomial's value at the public point, independent of how the work is split into chunks.",
  "every coefficient list, point and chunk size",
  "Chunking depends on the number of threads.",
  [M+"rep3/poly.rs", M+"shamir/poly.rs"])
p("C41", "Shared curve points",
  "Addition, subtraction, public and secret scalar multiplication, multi-scalar multiplication, promotion and opening of shared points match the group operations.",
  "every group, all points, scalars, randomness",
  "All values.",
  [M+"rep3/pointshare.rs", M+"shamir/pointshare.rs"])
p("C42", "Ring sharing and arithmetic",
  "Over integers modulo 2^k: sharing round-trips, linear operations, multiplication, opening and selection are exact modulo 2^k, including one-bit rings.",
  "every k, all operands, sharings, randomness",
  "All values.",
  [M+"rep3_ring/arithmetic.rs", M+"rep3_ring.rs"])
p("C43", "Ring comparisons and conversions",
  "Comparisons over k-bit integers are the unsigned integer comparisons; a2b, b2a are inverse conversions.",
  "every k, all operands, randomness",
  "Boundary cases.",
  [M+"rep3_ring/detail.rs", M+"rep3_ring/conversion.rs"])
p("C44", "Casts between rings and fields",
  "Downcast keeps the value modulo the smaller modulus, upcast keeps the integer value, ring to field keeps the integer value and field to ring reduces it modulo 2^k.",
  "every pair of widths, all values",
  "All widths and values.",
  [M+"rep3_ring/casts.rs"])
p("C45", "One-hot vectors",
  "ohv of a shared k-bit index is the shared vector of length 2^k that is one exactly at the index.",
  "every k >= 1, every index, all randomness",
  "Recursive doubling for all k.",
  [M+"rep3_ring/gadgets/ohv.rs: ohv, rand_ohv"])
p("C46", "Oblivious table lookup and update",
  "Reading a public or shared table at a shared index below its length returns the entry at that index; writing changes exactly that entry.",
  "every table length >= 2, every in-range index, all randomness",
  "All table sizes and indices.",
  [M+"rep3_ring/gadgets/lut_field.rs", "mpc-core/src/lut.rs"])
p("C47", "Batched lookups with tables of different size",
  "The batched public lookup treats shorter tables as padded with zero.",
  "every list of tables",
  "Needs tables of different length.",
  [M+"rep3_ring/gadgets/lut_field.rs: read_multiple_public_lut_low_depth"])
p("C48", "Oblivious permutation",
  "Shuffling and un-shuffling with the parties' joint random permutation are inverse; applying the inverse of a shared permutation and composing shared permutations are exact.",
  "every length, every permutation, all randomness",
  "All permutations.",
  [M+"rep3_ring/gadgets/sort.rs: shuffle, unshuffle, shuffle_reveal, apply_inv, compose"])
p("C49", "Radix sort sorts",
  "radix_sort_fields returns a permutation of its inputs that is sorted by the low bits, stable, for all inputs and all random permutations; radix_sort_fields_vec_by orders every given vector by private and public keys; too many inputs or a bit size above the integer width are refused by all parties.",
  "every list length, every bit size from one to the integer width, all values, all randomness, all schedules on both networks",
  "All inputs and permutations.",
  [M+"rep3_ring/gadgets/sort.rs: radix_sort_fields, gen_perm, gen_bit_perm"])
p("C50", "Garbled gates decode correctly",
  "For every AND gate garbled with the half-gates scheme and every pair of input labels the evaluator obtains exactly the output label that encodes the conjunction; XOR and NOT are free.",
  "every hash function, every global offset with colour bit one, all labels, all bits",
  "Labels are 128 bits.",
  [M+"rep3/yao.rs: garble_and_gate, evaluate_and_gate", M+"rep3/yao/garbler.rs", M+"rep3/yao/evaluator.rs"])
p("C51", "Garbled arithmetic circuits",
  "The ripple adders, subtractors, modular adder, comparison, multiplexer and divider circuits compute the corresponding integer functions.",
  "every width, all inputs",
  "All widths and inputs.",
  [M+"rep3/yao/circuits.rs: bin_addition, bin_subtraction, adder_mod_p, bin_div, unsigned_ge"])
p("C52", "Adding a public constant inside a circuit",
  "The constant adder circuit adds its public constant modulo 2^n.",
  "every constant and width",
  "Wrong only for particular constants.",
  [M+"rep3/yao/circuits.rs: bin_addition_constant_no_carry, half_adder_const"])
p("C53", "Merge-sort network sorts",
  "The Batcher odd-even merge network outputs its inputs in ascending order.",
  "every list length, all values",
  "All lengths.",
  [M+"rep3/yao/circuits.rs: batcher_odd_even_merge_sort_inner"])
p("C54", "Promoted points convert correctly",
  "A public curve point promoted to a trivial sharing converts to field-coordinate shares of that point, and the shared zero test on it answers correctly.",
  "every curve point",
  "Fails only for special multiples of the generator.",
  [M+"rep3/pointshare.rs: promote_to_trivial_share, is_zero", M+"rep3/conversion.rs: point_share_to_fieldshares"])

p("C55", "Shamir inversion and division",
  "Inverting a shared value (or a vector, or dividing by a shared value) either gives every party its share of the inverse (quotient), or fails at every party; it fails exactly when the value or the random mask is zero.",
  "all values and masks, every reachable state, every schedule",
  "Zero masks are random events; agreement of all parties is about every schedule.",
  [M+"shamir/arithmetic.rs: inv, inv_vec, div, div_shared_by_public, div_public_by_shared"])
p("C56", "Opening reveals nothing but the opened value",
  "Opening a shared value, or the product of two shared values, tells any t parties nothing beyond their own shares and the opened value.",
  "all sharings, every coalition of t parties, every schedule",
  "A statement about what is not learnt.",
  [M+"shamir/arithmetic.rs: open, mul_open", M+"shamir/network.rs: broadcast_next"])

p("C57", "Points convert to coordinates",
  "Converting a shared curve point to shared coordinates gives the coordinates and the infinity flag of exactly that point, and the shared zero test says whether it is the point at infinity, provided no component of the sharing is zero and the sum of the first two components is neither zero nor equal to the third; a party holding a zero component panics; otherwise the conversion fails only, and then at all parties alike, when the random value blinding the inversion is zero. The same holds element-wise for vectors.",
  "every curve y^2 = x^3 + a x + b over every prime field, every point and every sharing meeting the condition, vectors of every length, all randomness and schedules",
  "Affine formulas have exceptional cases that random tests never meet.",
  [M+"rep3/conversion.rs: point_share_to_fieldshares, point_share_to_fieldshares_many", M+"rep3/pointshare.rs: is_zero, is_zero_many", M+"rep3/detail.rs: point_addition, point_addition_many"])
p("C58", "Coordinates convert to points",
  "Converting shared coordinates with a shared infinity flag gives a sharing of exactly the described point (the point at infinity when the flag is one, whatever the coordinates), unless the blinding point drawn by party 2 is zero or shares its first coordinate with the input; it fails only, and then at all parties alike, when the random value blinding the inversion is zero. The same holds element-wise for vectors.",
  "every curve, every point, every sharing of its coordinates, vectors of every length, all randomness and schedules",
  "Exceptional cases and the mapping of the three parties' roles to the components must be right for all values.",
  [M+"rep3/conversion.rs: fieldshares_to_pointshare, fieldshares_to_pointshare_many"])
p("C59", "Converting points reveals nothing",
  "Converting shared points to shared coordinates tells no single party anything about the points or relations between them.",
  "every vector of shared points, every party, all randomness",
  "A statement about what is not learnt.",
  [M+"rep3/conversion.rs: point_share_to_fieldshares_pre, point_share_to_fieldshares_pre_many"])

p("C60", "Oblivious tables of curve points",
  "Reading a public or shared table of points at a shared index below its length returns the point at that index, also when several public tables are read at once; writing changes exactly that entry.",
  "every table length >= 2, every number of tables, every in-range index, all randomness",
  "All table sizes, numbers of tables and indices.",
  [M+"rep3_ring/lut_curve.rs", M+"rep3_ring/gadgets/lut_curve.rs: read_public_lut, read_public_luts, read_shared_lut, write_lut"])
p("C61", "Concurrent sub-protocols do not interfere",
  "Running two closures at the same time on two networks with forked states gives every party the results that the closures give when run one after the other; if the first fails at all parties, all calls fail and nobody hangs.",
  "any parties, any closures, every interleaving of all threads of all parties",
  "The interleavings of six threads cannot be enumerated by tests.",
  ["mpc-net/src/lib.rs: join", M+"rep3.rs: fork", M+"rep3_ring/gadgets/lut_field.rs: read_public_lut_low_depth"])
p("C62", "Verified netlists evaluate",
  "A Bristol-fashion netlist that passes verification evaluates on every input of the right shape, no gate reads a wire before it was set, and the result does not depend on the default value of the wires.",
  "every netlist, all inputs, every type of wires",
  "All netlists.",
  [M+"rep3/yao/bristol_fashion/bristol.rs: evaluate_with_default", M+"rep3/yao/bristol_fashion/bristol/builder.rs: verify"])
p("C63", "Shares become wire labels",
  "The two garblers draw the same offset with colour bit one and the evaluator gets none; converting an arithmetic sharing (one value, a vector, or gate by gate in a stream) or a binary sharing to garbled-circuit wires leaves both garblers with the same zero labels and the evaluator with the labels of exactly the bits of the shared value.",
  "every odd modulus, all values and sharings, vectors of every length, all randomness, every hash function, every schedule of the three parties",
  "Three parties, two roles, all values and all random streams.",
  [M+"rep3/conversion.rs: a2y, a2y_streaming, a2y_many, b2y", M+"rep3/yao.rs: joint_input_arithmetic_added, joint_input_binary_xored", M+"rep3/rngs.rs: generate_random_garbler_delta"])
p("C64", "Arithmetic to binary through a garbled circuit",
  "Converting an arithmetic sharing to a binary one through a garbled circuit, streamed or not, one value or a vector, gives a binary sharing of the canonical representative, as the direct conversion does.",
  "every odd modulus, all values, sharings, lengths and randomness, every hash function, every schedule",
  "All values and all random streams.",
  [M+"rep3/conversion.rs: y2b, y2b_many, a2y2b, a2y2b_streaming, a2y2b_many"])
p("C65", "Binary to arithmetic through a garbled circuit",
  "Converting wire labels, or a binary sharing of a number below the modulus, to an arithmetic sharing through a garbled circuit gives a sharing of that number, unless the output hash maps the two labels of an output wire to the same value.",
  "every odd modulus, all values below it, all sharings and randomness, every hash function, every schedule",
  "All values and all random streams; hash collisions cannot be provoked by tests.",
  [M+"rep3/conversion.rs: y2a, y2a_streaming, b2y2a, b2y2a_streaming", M+"rep3/yao/evaluator.rs: output_to_id0_and_id1", M+"rep3/yao/garbler.rs: output_to_id0_and_id1"])

p("C66", "Integer division of field elements",
  "Dividing shared field elements as integers (shared by shared, shared by public, public by shared, or by a power of two of any size; one pair or vectors) gives sharings of the quotients of the canonical representatives, for non-zero divisors.",
  "every odd modulus, all dividends and non-zero divisors, every vector length, both settings of the share conversion, all randomness, every hash without collisions on the two labels of a wire, every schedule",
  "All pairs of values of a 254 bit field and all random streams.",
  [M+"rep3/yao.rs: field_int_div, field_int_div_many, field_int_div_by_public, field_int_div_by_shared, field_int_div_power_2", M+"rep3/yao/circuits.rs: field_int_div, field_int_div_by_public, field_int_div_by_shared, field_int_div_power_2_many"])
p("C67", "Pieces of field elements",
  "Decomposing shared field elements gives sharings of the digits in base 2^size of the lowest bits asked for; taking the remainder modulo 2^n and slicing give exactly those bits of the canonical representative.",
  "every odd modulus, all values, every total up to the bit size, every piece size (also when it does not divide the total), every pair of cut points, vectors of every length, all randomness and schedules",
  "All values, sizes and cut points.",
  [M+"rep3/yao.rs: decompose_arithmetic, decompose_arithmetic_many, slice_arithmetic, slice_arithmetic_many, field_mod_power_2", M+"rep3/yao/circuits.rs: decompose_field_element_many, slice_field_element_many, field_int_mod_power_2"])
p("C68", "Integer division of ring elements",
  "Dividing shared ring elements as unsigned numbers (shared by shared, shared by public, public by shared, or by a power of two of any size; one pair or vectors) gives sharings of the quotients, for non-zero divisors.",
  "every ring size, all dividends and non-zero divisors, every vector length, all randomness and schedules",
  "All pairs of values of all ring sizes.",
  [M+"rep3_ring/yao.rs: ring_div, ring_div_many, ring_div_by_public, ring_div_by_shared, ring_div_power_2", M+"rep3/yao/circuits.rs: ring_div_many, ring_div_by_public_many, ring_div_by_shared_many"])
p("C69", "Limbs across fields and rings",
  "Decomposing a shared field element into shared ring elements gives the digits of its canonical representative; dividing a shared ring element by a public number into field limbs gives the limbs of the quotient and of the remainder.",
  "every odd modulus, ring size, limb size and number of limbs that fit, all values, vectors of every length, all randomness and schedules",
  "All values, sizes and numbers of limbs.",
  [M+"rep3_ring/yao.rs: decompose_field_to_rings, decompose_field_to_rings_many, ring_div_by_public_to_limbs, ring_div_by_public_to_limbs_many"])
p("C70", "Conversions of ring elements through garbled circuits",
  "Through garbled circuits, streamed or not, a ring element goes from additive to binary sharing and back unchanged; into a wider ring its unsigned value is unchanged; from the field into a ring it is the remainder of the canonical representative; from a ring into the field, for values below the modulus, it is the same number.",
  "every ring size and odd modulus, all values, vectors of every length, all randomness and schedules",
  "All values and all random streams.",
  [M+"rep3_ring/conversion.rs: a2y2b, a2y2b_streaming, b2y2a, b2y2a_streaming", M+"rep3_ring/yao.rs: field_to_ring_many, ring_to_field_many, upcast_many", M+"rep3_ring/casts.rs"])

p("C71", "Poseidon2 in the clear",
  "For every parameter set the constructor accepts (non-empty state, and the standard diagonal for states of two and three elements) the permutation is the one of the Poseidon2 paper, given by its matrices, round constants and power; ill-formed parameters are rejected.",
  "every commutative ring, state size, degree, number of rounds, all constants, all states",
  "All parameter sets and states; the optimised linear layers have one code path per state size.",
  ["mpc-core/src/gadgets/poseidon2/poseidon2_params.rs: new", "mpc-core/src/gadgets/poseidon2/poseidon2_permutation.rs: permutation, matmul_external, matmul_internal"])
p("C72", "Poseidon2 on replicated shares",
  "On sharings of states the permutation (directly, with precomputed powers, packed, or on additive shares) gives a sharing of the permuted state; the precomputation gives sharings of random values and their powers; a pool made for n permutations serves n permutations one after the other, and for any further one all parties panic before a precomputed value is used a second time.",
  "every field, parameter set with degree five, state, number of packed states, history of uses of the pool, all randomness and schedules",
  "All states, pools and histories; a reused mask does not change any output.",
  ["mpc-core/src/gadgets/poseidon2/rep3.rs: precompute_rep3, precompute_rep3_additive, rep3_permutation_in_place, rep3_permutation_in_place_with_precomputation, rep3_permutation_in_place_with_precomputation_packed, rep3_permutation_additive_in_place_with_precomputation"])
p("C73", "Poseidon2 on Shamir shares",
  "The same for Shamir sharings: the permutation (directly, with precomputed powers, or packed) gives a sharing of the permuted state, a pool for n permutations serves exactly n.",
  "any number of parties and threshold, every field, parameter set with degree five, state, number of packed states, history of uses of the pool, all randomness and schedules",
  "All numbers of parties, states, pools and histories.",
  ["mpc-core/src/gadgets/poseidon2/shamir.rs"])

p("C74", "Merkle trees",
  "For every arity and every depth of at least one, the tree function computes in place the root of the full tree over the leaves, with Poseidon2 as sponge or in compression mode; on replicated or Shamir sharings of the leaves it gives a sharing of that root. A number of leaves that is not a power of the arity, and an arity that does not fit the state, are rejected, on shares by all parties. (A single leaf: panics unless compression fills the state.)",
  "every field, parameter set, arity, depth, all leaves, all numbers of parties and thresholds, all randomness and schedules",
  "All depths and arities; the layers overwrite each other in one vector, so an index error shows only for some shapes.",
  ["mpc-core/src/gadgets/merkle_tree/plain.rs: merkle_tree_sponge, merkle_tree_compression", "mpc-core/src/gadgets/merkle_tree/rep3.rs", "mpc-core/src/gadgets/merkle_tree/shamir.rs"])
p("C75", "Merkle witnesses",
  "For every leaf index the tree function with witness gives the same root and a path whose positions are the digits of the index, and verification accepts it. Verification accepts exactly the non-empty paths of constant arity that lead to the root. An accepted path of the depth and arity of the tree shows that the value is the leaf at the index of the path, unless it yields a collision of the hash; the depth itself is not checked, a shorter path can accept an inner node.",
  "every ring, parameter set, arity, depth, all leaves, indices, values and paths, also dishonest ones",
  "All adversarial paths.",
  ["mpc-core/src/gadgets/merkle_tree/plain.rs: merkle_tree_sponge_with_witness, merkle_tree_compression_with_witness, verify_merkle_path_sponge, verify_merkle_path_compression"])

p("C76", "Roots of unity and witness maps of Groth16",
  "For every prime field the search for a quadratic non-residue ends and the table it yields holds a primitive root of unity for every power of two up to the two-adicity, each the square of the next. On replicated or Shamir sharings of the witness the Circom witness map gives sharings of the values of A*B-C on the coset; for a satisfying assignment the libsnark witness map gives sharings of the coefficients of the quotient by the vanishing polynomial.",
  "every prime field with correct constants, every well-formed constraint system that is not too large, all assignments, any number of parties and threshold, all randomness and schedules",
  "All constraint systems and domain sizes; an error in the transforms shows as an invalid proof for some sizes only.",
  ["co-circom/co-groth16/src/groth16.rs: roots_of_unity, groth16_roots_of_unity", "co-circom/co-groth16/src/groth16/reduction.rs: CircomReduction, LibSnarkReduction", "co-circom/co-groth16/src/mpc/rep3.rs", "co-circom/co-groth16/src/mpc/shamir.rs", "mpc-core/src/protocols/rep3/arithmetic.rs: local_mul_vec"])
p("C77", "The collaborative Groth16 prover computes the Groth16 proof",
  "Every party of the collaborative prover (replicated shares, Shamir shares, replicated shares translated to Shamir shares, or in the clear) gets the same proof, and it is the Groth16 proof for the shared assignment and the random values that the parties' generators determine. A wrong number of public inputs or witness values and a constraint system that is too large for the field are errors at all parties.",
  "every prime field, groups, proving key with enough points, constraint system, assignment, both witness maps, any number of parties and threshold, all randomness and all schedules of the two parallel networks",
  "All keys, circuits and schedules of two networks.",
  ["co-circom/co-groth16/src/groth16.rs: prove, prove_inner, create_proof_with_assignment, calculate_coeff, prove_with_shamir_bridge", "co-circom/co-groth16/src/mpc/"])
p("C78", "Completeness of the collaborative Groth16 prover",
  "With a key from a trusted setup for the constraint system and shares of a satisfying witness, all parties get the same proof and the verifier accepts it: for keys of snarkjs with the Circom witness map (domains smaller than the largest of the field), for keys of libsnark and arkworks with the other one.",
  "every prime field, bilinear pairing, constraint system, satisfying assignment, all secrets of the setup with non-zero gamma and delta, any number of parties and threshold, all randomness and schedules",
  "All circuits, witnesses, keys and random values.",
  ["co-circom/co-groth16/src/groth16.rs: Rep3CoGroth16::prove, ShamirCoGroth16::prove, prove_with_shamir_bridge", "co-circom/co-groth16/src/verifier.rs: verify"])
p("C79", "Proofs reveal nothing about the witness",
  "For two witnesses for the same public inputs there is a permutation of the random values that turns the proofs for one into the proofs for the other, so both have the same distribution of proofs.",
  "every prime field, constraint system, key from a trusted setup, both witness maps, all pairs of satisfying witnesses",
  "A statement about distributions.",
  ["co-circom/co-groth16/src/groth16.rs: create_proof_with_assignment"])

p("C80", "The clear-text circom VM computes circom's operators",
  "Comparisons are those of the representatives in [-(p-1)/2, (p-1)/2]; integer quotient and remainder satisfy a = q*b + r with r < b and exist exactly for b != 0; the square root squares to its argument, is not negative, and exists exactly for squares; the bit decomposition consists of the binary digits.",
  "every odd prime modulus and all operands",
  "The comparisons are implemented by shifting the field by (p+1)/2; tests compare a few pairs.",
  ["co-circom/circom-mpc-vm/src/mpc/plain.rs: CircomPlainVmWitnessExtension, val, is_negative, to_usize"])

p("C81", "Binary operations of the collaborative circom VM agree with the clear-text VM",
  "For operands of any mix of public and secret the three parties obtain a public value or a replicated sharing of the result that the clear-text VM computes on the values, with both correlated generators still in step; division by a secret fails for all parties together, and only if the common random mask is zero.",
  "every odd prime, width of the binary shares, conversion protocol, operator, operands, sharing, correlated state of the generators and schedule",
  "Needs all sharings of all operands, all message schedules of two networks used by two threads per party, and all fields.",
  ["co-circom/circom-mpc-vm/src/mpc/rep3.rs: CircomRep3VmWitnessExtension"])

p("C82", "Other operations of the collaborative circom VM agree with the clear-text VM",
  "Negation, logical negation, the multiplexer, square roots, zero tests, opening, promotion to shares, logs and the accelerated bit decomposition and bit addition return a sharing of (or the same public value as) the result of the clear-text VM.",
  "every odd prime, conversion protocol, operand, sharing, state of the generators and schedule",
  "As for C81.",
  ["co-circom/circom-mpc-vm/src/mpc/rep3.rs: CircomRep3VmWitnessExtension"])

p("C83", "Collaborative witness extension of programs without secret branches",
  "For a compiled circom program that does not branch on secret values (and divides by public values only), the three parties obtain the public outputs of the clear-text VM on the same inputs and replicated shares of the rest of its witness.",
  "every bytecode program (templates, functions, loops, sub-components, accelerators), inputs by name or position with any mix of public and secret, every sharing, odd prime field, state of the generators and schedule",
  "All programs, inputs, sharings and schedules.",
  ["co-circom/circom-mpc-vm/src/mpc_vm.rs: WitnessExtension::run, run_with_flat, Component::run", "co-circom/circom-mpc-vm/src/mpc/rep3.rs", "co-circom/circom-mpc-vm/src/mpc/plain.rs"])

p("C84", "Collaborative witness extension of every program is oblivious evaluation",
  "For every compiled circom program the three parties obtain the public values, and replicated shares of the witness, of the run on marked clear values, in which both branches of a secret condition are executed and assignments in them select between old and new value. With a division by a secret or a root of a secret, the only alternative is that all parties fail.",
  "every bytecode program, inputs, sharing, odd prime field, state of the generators and schedule",
  "All programs, inputs, sharings and schedules.",
  ["co-circom/circom-mpc-vm/src/mpc_vm.rs: WitnessExtension::run, Component::run, IfCtxStack", "co-circom/circom-mpc-vm/src/accelerator.rs", "co-circom/circom-mpc-vm/src/stack.rs"])

p("C85", "Compiled circom programs may branch on secrets",
  "For every program in the image of the compiler (without calls of user functions), if the run on marked clear values succeeds and, inside branches on secrets, creates no component and skips no else-less branch with a public condition, then the public values and the witness the three parties obtain (in the clear and as shares) are those of the plain VM, which jumps instead of running both branches.",
  "every compiled program (expressions, stores, component creation and inputs, nested branches and loops), inputs, sharing, odd prime field, state of the generators and schedule",
  "All programs with arbitrarily nested branches and loops, all inputs and schedules; a test compares one program.",
  ["co-circom/circom-mpc-vm/src/mpc_vm.rs: Component::run, IfCtxStack, MpcOpCode::Branch, EndTruthyBranch, EndFalsyBranch, StoreVars, StoreSignals", "co-circom/circom-mpc-compiler/src/lib.rs: handle_branch_bucket, handle_loop_bucket, handle_store_bucket"])

p("C86", "The compiler's code computes the meaning of the statements",
  "The bytecode the compiler emits for a template makes the plain VM compute exactly what the statements mean: expressions, assignments to variables and signals, vector comparisons, branches, loops, assertions, creation of components and their execution once all inputs have arrived, input signals by name, and the witness from the signals. A run succeeds with a witness if and only if the statements have an execution with this witness.",
  "every compiled program without calls of user functions and without accelerators, all inputs, every odd prime field, any number of loop iterations and any nesting of components",
  "All programs and inputs, unbounded loops, and the converse direction (nothing else is computed) cannot be tested.",
  ["co-circom/circom-mpc-compiler/src/lib.rs: handle_store_bucket, handle_compute_bucket, handle_branch_bucket, handle_loop_bucket, handle_create_cmp_bucket", "co-circom/circom-mpc-vm/src/mpc_vm.rs: Component::run, WitnessExtension::run, set_input_signals, post_processing"])

p("C87", "Accelerated components compute what the circomlib templates compute",
  "With its accelerators the VM does not run the code of IsZero, Num2Bits and AddBits, but the signals get the values which the templates assign, in the places of outputs, inputs and intermediate signals, and nothing else changes. The values satisfy the constraints of the templates: always for IsZero, exactly for inputs of the given number of bits for Num2Bits, for bit inputs for AddBits. The three parties get shares of the same signals, also for secret inputs.",
  "every odd prime field, number of bits, position of the component, values of the signals, every sharing, state of the generators and schedule",
  "All field elements, widths and layouts of signals.",
  ["co-circom/circom-mpc-vm/src/accelerator.rs: register_iszero, register_num2bits, register_addbits, run_cmp_accelerator", "co-circom/circom-mpc-vm/src/mpc_vm.rs: Component::run", "co-circom/co-circom/examples/lib/comparators.circom: IsZero", "co-circom/co-circom/examples/lib/bitify.circom: Num2Bits"])

p("C88", "Split and merged inputs are sharings of what the JSON files say",
  "A JSON input is accepted if and only if each entry is a boolean, a string with a decimal or hexadecimal number (perhaps negative), or a nested array of these and \"?\". Splitting gives the public entries in the clear and sharings (Rep3 or Shamir) of the others to the parties, under the names of the signals, and nothing else. Merging the parts of several users succeeds at all parties or fails at all: it succeeds if and only if signals which two users give are public and have the same value, and then the parties hold the union.",
  "all JSON values and nestings, numbers of users, names, field elements, random values, thresholds and numbers of parties",
  "Unboundedly nested inputs, all combinations of users with overlapping names, all random values.",
  ["co-circom/co-circom-types/src/lib.rs: split_input, split_input_shamir, merge_input_shares, parse_field, parse_array, parse_boolean"])

p("C89", "From the JSON files of several users to a shared witness",
  "If the inputs of the users agree, the parties merge their parts, and the collaborative witness extension gives them the public values and shares of the witness which the circuit has on the union of the inputs. For compiled circuits this is the witness by the meaning of the statements. The opened values are the constant, the outputs and as many inputs as the merged map has public entries.",
  "all users, JSON inputs, programs, odd prime fields, random values, states of the generators and schedules",
  "The statement composes three phases for all inputs, programs and schedules.",
  ["co-circom/co-circom/src/lib.rs: generate_witness_rep3", "co-circom/co-circom-types/src/lib.rs: split_input, merge_input_shares", "co-circom/circom-mpc-vm/src/mpc_vm.rs: run, set_input_signals, post_processing"])

p("C90", "All forms of a shared witness hold the same witness",
  "Dealing a witness gives all parties the public values and a sharing of the rest, whichever of the four compressions is chosen. Expanding it gives the parties replicated shares, translating it gives them Shamir shares of degree one, and converting it gives additive shares, always of the same values. Too few values are a panic. Unbatching transposes a batch whose rows have one length and panics on all others. The inputs for the verifier are the public values without the leading constant.",
  "all witnesses, numbers of public values, compressions, seeds, random values, batches, states and schedules",
  "The forms must agree for every witness and every seed, after interaction in every schedule.",
  ["co-circom/co-circom-types/src/lib.rs: share_rep3, share_shamir, unbatch, public_inputs_for_verify, From<CompressedRep3SharedWitness> for SharedWitness", "co-circom/co-circom/src/lib.rs: split_witness_rep3, uncompress_shared_witness, split_witness_shamir, translate_witness"])
p("C91", "From inputs or a witness to an accepted Groth16 proof",
  "If a witness satisfies the constraints, it can be dealt in any form; the parties expand or translate it and prove, and all get the same proof, which the verifier accepts for the public values. The same holds if users split JSON inputs and the parties merge them, extend the witness and prove.",
  "all circuits, keys, inputs, witnesses, compressions, random values, states of the generators and schedules",
  "Completeness of the whole chain ranges over all circuits, inputs, randomness and schedules.",
  ["co-circom/co-circom/src/lib.rs: split_witness_rep3, uncompress_shared_witness, translate_witness, generate_witness_rep3", "co-circom/co-groth16/src/groth16.rs: prove_inner", "co-circom/co-circom-types/src/lib.rs: split_input, merge_input_shares"])

p("C92", "The solver for Noir programs finds the solution",
  "What the plain solver for the opcodes of a Noir program returns (witness map and output) is part of every assignment that has the given inputs and satisfies the opcodes: constraints, memory blocks, range checks, AND and XOR. It finds exactly the witnesses which the text of the program determines. If a satisfying assignment exists and each opcode determines what it is solved for, the solver succeeds.",
  "every program of these opcodes, every prime field, every set of inputs",
  "All programs and inputs; the first part is about all assignments.",
  ["co-noir/co-acvm/src/solver.rs: solve_with_output, open_results", "co-noir/co-acvm/src/solver/assert_zero_solver.rs: solve_assert_zero, simplify_expression", "co-noir/co-acvm/src/solver/memory_solver.rs: solve_memory_init_block, solve_memory_op", "co-noir/co-acvm/src/solver/blackbox_solver.rs: solve_range_opcode, solve_logic_opcode"])

p("C93", "Solving a Noir program on shares",
  "If the plain solver succeeds on some inputs, the three parties succeed on public values and replicated shares of these inputs; they get public values and shares of the plain result and all the same, plain output. Only if a constraint multiplies an unknown witness can they fail, and then all do.",
  "every program with tables of at least three entries, every mix of public and secret inputs, sharing, odd prime field, state of the generators and schedule",
  "All programs, inputs, sharings and schedules.",
  ["co-noir/co-acvm/src/solver.rs", "co-noir/co-acvm/src/mpc/rep3.rs", "co-noir/co-acvm/src/mpc/plain.rs"])

p("C94", "An accepted Noir program is satisfied",
  "If the solver accepts, the witness map satisfies the opcodes of the program. (False of the code: a constraint whose witnesses are all known is not checked, and a memory read replaces a known witness.)",
  "every program, prime field and inputs",
  "All programs and inputs.",
  ["co-noir/co-acvm/src/solver/assert_zero_solver.rs: solve_assert_zero", "co-noir/co-acvm/src/solver/memory_solver.rs: solve_memory_op"])

p("C95", "Solving a Noir program on Shamir shares",
  "If the plain solver succeeds, the parties of the Shamir protocol get public values and shares of its result and all the same output. (False of the code: in the product of a public and a shared witness the coefficient is dropped.)",
  "every number of parties and threshold, program, mix of public and secret inputs, prime field, state and schedule",
  "All programs, inputs, sharings and schedules.",
  ["co-noir/co-acvm/src/mpc/shamir.rs: solve_mul_term, solve_linear_term, solve_equation", "co-noir/co-acvm/src/solver.rs"])

p("C96", "PLONK: proofs of true statements are accepted",
  "The algorithm of the PLONK prover, run on values in the clear, returns a proof unless a challenge hits an exceptional value, and every proof that it returns for an assignment that satisfies the circuit is accepted by the verifier with the same public inputs.",
  "every circuit with at least one public input and at least eight gates, valid proving key, satisfying assignment, choice of the eleven blinding factors, hash function, pairing and prime field",
  "All circuits, keys, witnesses and blinding factors; a test has one circuit and one key.",
  ["co-circom/co-plonk/src/lib.rs: CoPlonk::prove_inner", "co-circom/co-plonk/src/round1.rs", "co-circom/co-plonk/src/round2.rs", "co-circom/co-plonk/src/round3.rs", "co-circom/co-plonk/src/round4.rs", "co-circom/co-plonk/src/round5.rs", "co-circom/co-plonk/src/plonk.rs: Plonk::verify"])

p("C97", "PLONK in the clear returns accepted proofs",
  "Run without MPC on a satisfying assignment, the PLONK prover returns a proof that the verifier accepts, provided none of the random values is zero and no challenge hits an exceptional value. (If the first value that masks a product is zero, it panics.)",
  "every circuit with at least one public input and at least eight gates, valid proving key, satisfying assignment, sequence of nonzero random values, hash function, pairing and prime field",
  "All circuits, keys, witnesses and random values.",
  ["co-circom/co-plonk/src/mpc/plain.rs", "co-circom/co-plonk/src/lib.rs: CoPlonk::prove_inner", "co-circom/co-plonk/src/plonk.rs: Plonk::verify"])

p("C98", "Collaborative PLONK with Rep3: all parties return one accepted proof",
  "On replicated shares of a satisfying witness all three parties return the same proof and the verifier accepts it, in every interleaving of the eight networks, unless a challenge of the transcript hits an exceptional value. Only if one of the random shared values that mask the products of round 2 is zero can they fail, and then all return an error and none panics or hangs.",
  "every circuit with at least one public input and at least eight gates, valid proving key, satisfying assignment, sharing of the witness, correlated state of the generators, hash function, pairing, number of threads in polynomial evaluation and schedule of the 24 actors",
  "All circuits, keys, sharings, random values and schedules.",
  ["co-circom/co-plonk/src/mpc/rep3.rs", "co-circom/co-plonk/src/lib.rs: Rep3CoPlonk::prove", "co-circom/co-plonk/src/round1.rs", "co-circom/co-plonk/src/round2.rs", "co-circom/co-plonk/src/round3.rs", "co-circom/co-plonk/src/round4.rs", "co-circom/co-plonk/src/round5.rs"])

p("C99", "Collaborative PLONK with Shamir sharing: all parties return one accepted proof",
  "On Shamir shares of a satisfying witness, and with the number of preprocessed pairs the prover asks for, all parties return the same proof and the verifier accepts it, unless a challenge of the transcript hits an exceptional value; the preprocessed pairs never run out in a fork. Only if one of the pairs is a sharing of zero can they fail, and then all return an error.",
  "every number of parties and threshold, circuit with at least one public input and at least eight gates, valid proving key, satisfying assignment, sharing, preprocessing, hash function, pairing and schedule",
  "All circuits, keys, sharings, numbers of parties and schedules; the number of pairs must suffice for every circuit.",
  ["co-circom/co-plonk/src/mpc/shamir.rs", "co-circom/co-plonk/src/lib.rs: ShamirCoPlonk::prove", "mpc-core/src/protocols/shamir.rs: ShamirState, fork"])

p("C100", "PLONK: the verifier only accepts true statements",
  "If the PLONK verifier accepts a proof whose points are commitments to polynomials that the prover knows, then the number of public inputs is right, and the wire values that the prover committed to first satisfy every gate and every copy constraint of the circuit with these public inputs, unless one of the challenges falls into a small set that is determined by what was sent before it.",
  "every circuit and verification key made for it, public inputs, hash function, pairing with e(g1, g2) not zero, secret of the setup and algebraic prover (any polynomials of bounded degree, any claimed evaluations)",
  "A test can show that some wrong proofs are rejected, not that all are.",
  ["co-circom/co-plonk/src/plonk.rs: Plonk::verify, VerifierChallenges::new, calculate_r0_d, calculate_e, calculate_f, valid_pairing", "co-circom/co-plonk/src/lib.rs: calculate_lagrange_evaluations, calculate_pi"])

p("C101", "UltraHonk: extending and evaluating univariates",
  "A univariate in evaluation form, extended to more points, holds the values of the polynomial it stands for at these points, and its evaluation at a point is the value of that polynomial there. At the points 1, ..., n the evaluation panics.",
  "every length and target length, polynomial of fitting degree, point, and field in which the nodes are different",
  "All polynomials, lengths and points; there are four different algorithms for different lengths.",
  ["co-noir/ultrahonk/src/decider/univariate.rs: extend_from, evaluate", "co-noir/co-noir-common/src/barycentric.rs"])

p("C102", "UltraHonk: prover and verifier compute the same gate equations",
  "The two implementations of each of the 28 subrelations, on univariates in the prover and on values in the verifier, compute the gate equation of the specification times the scaling factor. Between two rows the equation is a polynomial of degree less than the number of evaluations that the prover keeps.",
  "every row or pair of rows, all parameters, scaling factors and fields",
  "All values of 41 columns; the degree bound is about all pairs of rows.",
  ["co-noir/ultrahonk/src/decider/relations/*.rs: accumulate, verify_accumulate"])

p("C103", "UltraHonk: the sumcheck proof of a satisfied circuit is accepted",
  "The sumcheck prover never fails, claims the values of the multilinear extensions of the columns at the challenges, and for a satisfied circuit the verifier accepts what it sends, provided that no round challenge is one of 1, ..., 7 and that the prover loses nothing by leaving out permutations and lookups on edges that look inactive. (Without the last condition an honest proof can be rejected.)",
  "every circuit size of at least four rows, number of virtual rounds, table, transcript function and batching challenges",
  "All circuits, witnesses and challenges.",
  ["co-noir/ultrahonk/src/decider/sumcheck/sumcheck_prover.rs: sumcheck_prove", "co-noir/ultrahonk/src/decider/sumcheck/sumcheck_round_prover.rs", "co-noir/ultrahonk/src/decider/sumcheck/sumcheck_verifier.rs: sumcheck_verify", "co-noir/ultrahonk/src/decider/types.rs: GateSeparatorPolynomial"])

p("C104", "UltraHonk: the sumcheck verifier only accepts satisfied circuits",
  "If the claimed evaluations are those of a table and the sumcheck verifier accepts, then every row of the table satisfies every gate and the lookups balance, unless one of the challenges falls into a small set that is determined by what was sent before it.",
  "every table, circuit size, number of rounds, prover and transcript function",
  "A test can show that some wrong proofs are rejected, not that all are.",
  ["co-noir/ultrahonk/src/decider/sumcheck/sumcheck_verifier.rs: sumcheck_verify", "co-noir/ultrahonk/src/decider/sumcheck/sumcheck_round_verifier.rs", "co-noir/ultrahonk/src/oink/oink_prover.rs: generate_alphas_round", "co-noir/ultrahonk/src/ultra_prover.rs: generate_gate_challenges"])

p("C105", "UltraHonk: the permutation column of a correct assignment passes",
  "The proving key carries the values of the variables in its wires and public inputs. The prover of the permutation argument never panics on such a key, and if the wires satisfy the copy constraints of the circuit (equal variables have equal values, the public inputs are the values of the public variables, and the tagged lists are permutations of each other), the column it computes satisfies both permutation relations in every row, for all challenges that make no denominator zero.",
  "every circuit (any number of blocks, rows, variables, copy classes, tags and public inputs), wires and challenges",
  "All circuits, assignments and challenges.",
  ["co-noir/co-builder/src/keys/plain_proving_key.rs: compute_permutation_argument_polynomials", "co-noir/co-builder/src/keys/plain_proving_key.rs: create_prover_instance", "co-noir/ultrahonk/src/oink/oink_prover.rs: compute_grand_product", "co-noir/ultrahonk/src/oink/oink_prover.rs: compute_public_input_delta"])

p("C106", "UltraHonk: wires that pass the permutation argument satisfy the copy constraints",
  "For every choice of the wires, apart from few values of the two challenges, no permutation column satisfies the permutation relations unless the wires satisfy the copy constraints of the circuit with exactly the public inputs that the verifier used.",
  "every circuit, wires, public inputs and permutation column",
  "A test can only try some wrong assignments.",
  ["co-noir/co-builder/src/keys/plain_proving_key.rs: compute_permutation_argument_polynomials", "co-noir/ultrahonk/src/decider/relations/permutation_relation.rs", "co-noir/ultrahonk/src/oink/oink_verifier.rs"])

p("C107", "UltraHonk: the lookup columns of correct lookups pass",
  "If the rows that look something up look up, in some order, what the lookup gates of the tables read, then the columns that the prover computes (the tables, the counts and tags of the reads, the inverses) satisfy the three lookup relations, for all challenges that make no denominator zero.",
  "every list of lookup tables (with and without index maps and twin keys), lookup gates, table of columns and challenges",
  "All tables, reads and challenges.",
  ["co-noir/co-builder/src/keys/plain_proving_key.rs: construct_lookup_table_polynomials", "co-noir/co-builder/src/keys/plain_proving_key.rs: construct_lookup_read_counts", "co-noir/ultrahonk/src/oink/oink_prover.rs: compute_logderivative_inverses"])

p("C108", "UltraHonk: everything that is looked up is in the tables",
  "For every choice of wires, tables, counts and tags, apart from few values of the two challenges, no column of inverses satisfies the lookup relations unless each row that looks something up looks up an entry of the tables.",
  "every table of columns, size, counts, tags and inverses",
  "A test can only try some wrong lookups.",
  ["co-noir/ultrahonk/src/decider/relations/logderiv_lookup_relation.rs", "co-noir/ultrahonk/src/oink/oink_prover.rs: compute_logderivative_inverses"])

p("C109", "UltraHonk: accepted means executed",
  "Soundness and completeness of the interactive proof as a whole: if the columns committed before the permutation challenges do not describe an execution of the circuit (gates, copy constraints, public inputs, lookups), then the sumcheck verifier accepts the claimed evaluations of whatever columns are added later only if a challenge falls into a small set fixed before it is drawn; if they do describe an execution, the columns the prover adds satisfy all relations.",
  "every circuit, public inputs, columns, prover messages and transcript function",
  "A test can show that some wrong proofs are rejected, not that all are.",
  ["co-noir/ultrahonk/src/oink/oink_prover.rs", "co-noir/ultrahonk/src/decider/sumcheck/sumcheck_verifier.rs: sumcheck_verify", "co-noir/co-builder/src/keys/plain_proving_key.rs"])

p("C110", "Collaborative UltraHonk: memory records on shares",
  "Before the second commitment the prover fills the memory gates' cells of the fourth wire with records, combinations of the row's first three wires and a read/write flag. In the clear, and on Rep3 and Shamir shares, the parties obtain (shares of) exactly the wire with these records, all other cells unchanged, also where the flag itself is shared.",
  "every wire, list of read, write and shared records, challenge, and sharing",
  "All wires, records and randomness.",
  ["co-noir/ultrahonk/src/oink/oink_prover.rs: compute_w4", "co-noir/co-ultrahonk/src/co_oink/co_oink_prover.rs: compute_w4"])

p("C111", "Collaborative UltraHonk: the lookup inverses on shares",
  "From shares of the wires and the read tags the parties compute shares of exactly the column of inverses that the prover in the clear computes, unless one of the random masks is zero; what happens then is stated too.",
  "every table of columns, size, challenges, sharing and randomness, for both protocols",
  "All columns, sharings and random values.",
  ["co-noir/co-ultrahonk/src/co_oink/co_oink_prover.rs: compute_logderivative_inverses", "co-noir/co-noir-common/src/mpc/rep3.rs: inv_many_in_place_leaking_zeros", "co-noir/co-noir-common/src/mpc/shamir.rs"])

p("C112", "Collaborative UltraHonk: the permutation column on shares",
  "From shares of the wires the parties compute shares of exactly the permutation column that the prover in the clear computes, or all return the same error, and then one of their random values was zero. A zero factor in a denominator, for which the prover in the clear still returns a column, makes all parties return an error.",
  "every circuit, wires, challenges, sharing and randomness, for both protocols",
  "All circuits, sharings and random values.",
  ["co-noir/co-ultrahonk/src/co_oink/co_oink_prover.rs: compute_grand_product", "co-noir/co-noir-common/src/lib.rs: array_prod_mul", "co-noir/co-noir-common/src/mpc/rep3.rs: inv_many_in_place", "co-noir/ultrahonk/src/oink/oink_prover.rs: compute_grand_product"])

p("C113", "UltraHonk circuit of a Noir program is sound",
  "From a program of arithmetic constraints and range checks the builder makes a circuit. Any execution of that circuit - columns that satisfy its gates, copy constraints and sorted lists, whatever witness the circuit was made with - yields an assignment that satisfies every constraint and range check of the program, and the public inputs of the execution are the values of the program's public witnesses followed by the eight zeros of the default pairing point. So if no assignment satisfies the program with some public inputs, the verifier of the interactive proof rejects unless a challenge falls into a small set. An expression whose terms cancel makes the builder panic.",
  "every program of AssertZero and RANGE opcodes, every number of bits, every witness, public inputs and columns, over every prime field larger than the circuit",
  "A missing constraint shows only with a witness that nobody would compute honestly; the honest witness passes all tests.",
  ["co-noir/co-builder/src/ultra_builder.rs: create_circuit, create_big_quad_constraint, create_dyadic_range_constraint, create_limbed_range_constraint, create_new_range_constraint, process_range_list, create_sort_constraint_with_edges", "co-noir/co-builder/src/acir_format.rs: split_into_mul_quad_gates, is_single_arithmetic_gate, assert_zero_to_quad_constraints", "co-noir/co-builder/src/keys/plain_proving_key.rs: populate_wires_and_selectors_and_compute_copy_cycles"])

p("C114", "UltraHonk circuit and verification key do not depend on the witness",
  "The circuit that is made without a witness, for the verification key, and the circuits that provers make with any witness of the right length are the same up to the values of the variables: the same rows, selectors, copy constraints, tags and public inputs; or circuit creation fails for all of them with the same error. The keys made from them then agree in everything but the wires and the values of the public inputs, so one verification key fits all proofs. A witness of the wrong length is rejected.",
  "every program of AssertZero and RANGE opcodes and every two witnesses",
  "A data-dependent branch in the builder shows only for the witnesses that take it.",
  ["co-noir/co-builder/src/ultra_builder.rs: create_circuit, init, build_constraints, finalize_circuit", "co-noir/co-builder/src/keys/plain_proving_key.rs: create_prover_instance"])

p("C115", "A witness that satisfies the program satisfies the UltraHonk circuit",
  "Let a program of AssertZero and RANGE opcodes be translated into constraints, and let a witness satisfy it. Then circuit creation neither panics nor fails for this witness, and the wires that the prover fills in describe an execution of the circuit: all rows of the arithmetic and the range blocks hold, with sorted lists, limbs, padding and filler gates; equal variables have equal values; each sorted list has the values it sorts; and the public inputs are the values of the public witnesses and eight zeros.",
  "every program of AssertZero and RANGE opcodes, every witness that satisfies it and every prime field of 14 to 256 bits",
  "A gate that is too strict, or an assertion that fails, shows only for the witnesses that meet it, such as boundary values of a range or a certain number of limbs.",
  ["co-noir/co-builder/src/ultra_builder.rs: create_circuit, create_new_range_constraint, decompose_into_default_range, process_range_list", "co-noir/co-builder/src/acir_format.rs: circuit_serde_to_acir_format"])

p("C116", "The collaborative sumcheck produces the honest proof",
  "Let the parties of a collaborative UltraHonk prover without zero knowledge hold the public columns of a table and shares of the witness columns. Then the sumcheck never fails, and all parties end with the same proof: one univariate per round and the values of the multilinear extensions of the columns at the challenges. If the table satisfies the circuit and no challenge is one of 1 to 7, the verifier accepts it. It is the proof of the plain prover whenever that prover loses nothing by leaving out permutations and lookups; otherwise the two can differ, and the plain one can be rejected while the collaborative one is accepted.",
  "every table of at least four rows, every sharing of it (Rep3, and Shamir with any number of parties), every choice of challenges, all random values of the parties and every schedule of messages",
  "The sums of 27 subrelations over all edges of all rounds are computed on shares with several multiplication rounds and a lazy reduction; a wrong factor shows only on tables where the term is not zero, and a wrong sharing only for some random values.",
  ["co-noir/co-ultrahonk/src/co_decider/co_sumcheck/co_sumcheck_prover.rs: sumcheck_prove, partially_evaluate, extract_claimed_evaluations", "co-noir/co-ultrahonk/src/co_decider/co_sumcheck/co_sumcheck_round.rs: compute_univariate, compute_virtual_contribution, accumulate_relation_univariates_batch", "co-noir/co-ultrahonk/src/co_decider/relations/: accumulate, fold_accumulator", "co-noir/co-ultrahonk/src/co_decider/univariates.rs: extend_from"])

p("C117", "The opening proof of UltraHonk is accepted",
  "Let the columns of a table be committed with a reference string of powers, let the columns that are also opened shifted begin with zero, and let the shifted columns hold the values of the next row. Then the opening proof that the plain prover without zero knowledge makes (batching, folding, two batched quotients) is accepted by the verifier for the values of the multilinear extensions of all columns and shifted columns at the challenges of the sumcheck, unless a challenge is one of the few values where the verifier divides by zero. The prover itself fails only if the folding challenge is zero. So after the sumcheck the verifier accepts the values that the sumcheck claims.",
  "every table of at least four rows and a power of two, every number of variables from the logarithm of the rows on, every long enough reference string with any secret, every pairing and every choice of challenges, depending on anything sent before",
  "The prover divides polynomials and the verifier recombines commitments and values with about a hundred scalars; a wrong power, sign or index can cancel for particular sizes, for columns that are zero, or when there are no variables beyond the size of the circuit.",
  ["co-noir/ultrahonk/src/decider/shplemini/shplemini_prover.rs: shplemini_prove, compute_batched_polys, compute_fold_polynomials, construct_univariate_opening_claims, compute_batched_quotient, compute_partially_evaluated_batched_quotient", "co-noir/ultrahonk/src/decider/shplemini/shplemini_verifier.rs: compute_batch_opening_claim, compute_fold_pos_evaluations, batch_gemini_claims_received_from_prover", "co-noir/ultrahonk/src/decider/decider_verifier.rs: pairing_check", "co-noir/co-noir-common/src/lib.rs: compute_opening_proof"])

p("C118", "The collaborative UltraHonk prover makes an accepted proof from the sumcheck on",
  "Let the parties of a collaborative UltraHonk prover without zero knowledge hold the public columns of a table and shares of the witness columns. If the plain opening prover makes a proof, all parties make the same one. If the parties run the sumcheck and then the opening at its challenges, and the folding challenge is never zero, they never fail and all end with the same two parts: the sumcheck of an honest prover, and an opening of the values claimed there that the verifier accepts, unless a challenge is one of the few where it divides by zero.",
  "every table of at least four rows and a power of two with shifted columns, every sharing of it (Rep3, and Shamir with any number of parties), every long enough reference string, every pairing, every choice of challenges, every split of polynomial evaluations among threads, all random values of the parties and every schedule of messages",
  "The parties only ever see shares, so a wrong local step (a public value added by every party, a size that is not rounded the same way, a value that is opened too early) shows as a rejected proof for some tables and sizes only.",
  ["co-noir/co-ultrahonk/src/co_decider/co_decider_prover.rs: prove, execute_pcs_rounds", "co-noir/co-ultrahonk/src/co_decider/co_shplemini/co_shplemini_prover.rs: shplemini_prove, gemini_prove, shplonk_prove, compute_batched_quotient", "co-noir/co-noir-common/src/lib.rs: compute_co_opening_proof, CoUtils::commit", "co-noir/co-noir-common/src/polynomials/shared_polynomial.rs: add_scaled_slice, factor_roots"])

p("C119", "A prover instance and a key without witness describe the same circuit, and a satisfying witness fills it",
  "Let the prover of UltraHonk build its instance (with public inputs, constants, range lists, the dummy lookup and the filler gates of all other blocks) from a program and a witness. Then building it without a witness also succeeds and gives the same size, the same number and position of public inputs and the same selectors, tables, permutations and Lagrange columns. If the witness satisfies the program, the columns are an execution of the circuit, the public inputs are the values of the public witnesses of the program followed by the eight zeros of the default pairing point, and with the columns computed after the challenges every relation of the proof system holds, unless a challenge makes a denominator zero.",
  "every program of AssertZero and RANGE opcodes, every list of public inputs, every witness that satisfies the program, every prime field of at least 2^14 elements, every choice of challenges",
  "Rows, selectors and tables are assembled from nine blocks at positions that depend on the program; one selector or read count that is off makes only some programs unprovable.",
  ["co-noir/co-builder/src/ultra_builder.rs: create_circuit, finalize_circuit, add_gates_to_ensure_all_polys_are_non_zero, create_gates_from_plookup_accumulators, add_default_to_public_inputs", "co-noir/co-builder/src/types/plookup.rs: get_lookup_accumulators, generate_honk_dummy_table", "co-noir/co-builder/src/keys/plain_proving_key.rs: create_prover_instance, construct_lookup_table_polynomials, construct_lookup_read_counts"])

p("C120", "UltraHonk is complete: a satisfying witness gives an accepted proof",
  "Let a witness satisfy a program, let the verification key be made from the program alone with a reference string of powers, and let the plain UltraHonk prover without zero knowledge build its instance and prove. Then the verifier accepts the proof together with the public inputs that the prover returns, and these are the values of the public witnesses of the program, unless a challenge is one of the few values where a denominator is zero, a sumcheck challenge is one of 1 to 7, or the prover leaves out a row that is not zero. The prover fails only if the reference string is too short, the folding challenge is zero or the term of the public inputs divides by zero.",
  "every program of AssertZero and RANGE opcodes with public inputs, every satisfying witness, every prime field of at least 2^14 and at most 2^256 elements, every long enough reference string, every pairing, every choice of challenges that may depend on everything sent before, with and without padding to the constant proof size",
  "Completeness ties together the circuit builder, the grand products, the sumcheck, the opening and the order of messages for circuits of any size; a test proves a few fixed programs.",
  ["co-noir/ultrahonk/src/ultra_prover.rs: prove", "co-noir/ultrahonk/src/ultra_verifier.rs: verify", "co-noir/ultrahonk/src/oink/oink_prover.rs: prove", "co-noir/ultrahonk/src/oink/oink_verifier.rs: verify", "co-noir/ultrahonk/src/decider/decider_prover.rs: prove", "co-noir/ultrahonk/src/decider/decider_verifier.rs: verify", "co-noir/co-builder/src/ultra_builder.rs: create_vk_barretenberg"])

p("C121", "Collaborative UltraHonk is complete: parties with shares of a satisfying witness make an accepted proof",
  "Let a witness satisfy a program, and let the parties hold the public columns of its prover instance and shares of the wires, the read counts and the read tags. Then the collaborative UltraHonk prover without zero knowledge fails at no party, all parties return the same proof and the values of the public witnesses as public inputs, and the plain verifier accepts both with the verification key that is made from the program alone, unless a challenge is one of the few values where a denominator is zero or a sumcheck challenge is one of 1 to 7. It is assumed that no jointly drawn random value is zero.",
  "every program of AssertZero and RANGE opcodes with public inputs, every satisfying witness, all Rep3 shares, all Shamir shares for any number of parties, every schedule of the messages, every prime field of at least 2^14 and at most 2^256 elements, every long enough reference string, every pairing and every choice of challenges that may depend on everything sent before",
  "A test runs the parties on a few fixed programs with one schedule; the claim is about every program, sharing, randomness and interleaving, and ties together all rounds of the collaborative prover with the verifier.",
  ["co-noir/co-ultrahonk/src/co_ultra_prover.rs: prove_inner, prove", "co-noir/co-ultrahonk/src/co_oink/co_oink_prover.rs: prove, commit_to_wires, commit_to_lookup_counts_and_w4, commit_to_logderiv_inverses, commit_to_z_perm", "co-noir/co-ultrahonk/src/co_decider/types.rs: from_memory_and_polynomials", "co-noir/co-ultrahonk/src/co_decider/co_decider_prover.rs: prove", "co-noir/ultrahonk/src/ultra_verifier.rs: verify"])

p("C122", "UltraHonk is sound up to the opening: with true claimed values only true statements are accepted",
  "Let no assignment satisfy a program with certain public inputs, and let the verification key be made from the program alone. Let a prover choose the wires, the read counts and the read tags as they like, before the challenges for the permutation and the lookup are drawn, and the grand product and the inverses as they like after these are drawn. If the column values that they claim in the proof are the values of the chosen columns and the columns of the key at the point of the sumcheck, then the verifier accepts the proof with these public inputs only if one of the challenges falls into a set of bad values that is fixed before the challenge is drawn: at most 103 n^2 values of beta, 9 n of gamma, 27 of alpha, n - 1 of the gate challenge and 7 of each challenge of the sumcheck, for a circuit of n rows.",
  "every program of AssertZero and RANGE opcodes with public inputs, every false statement, every choice of columns, every proof, every choice of challenges that may depend on everything sent before, every reference string and pairing, with and without padding to the constant proof size, every prime field that is large enough for the circuit",
  "Soundness is about all dishonest provers; a test only tries a few changed proofs.",
  ["co-noir/ultrahonk/src/ultra_verifier.rs: verify", "co-noir/ultrahonk/src/oink/oink_verifier.rs: verify", "co-noir/ultrahonk/src/decider/decider_verifier.rs: verify", "co-noir/ultrahonk/src/decider/sumcheck/mod.rs: sumcheck_verify", "co-noir/co-builder/src/ultra_builder.rs: create_circuit, create_vk_barretenberg"])

p("C123", "The opening protocol of UltraHonk is sound: an algebraic prover cannot open a column to a false value",
  "Let a prover know the polynomial behind every point that they send, and let these polynomials not depend on the secret of the reference string. If one of the claimed values of the columns is not the value of the multilinear extension of the coefficients of the committed polynomial at the given point (for a shifted column, of the coefficients from the second on), or a column that is shifted does not begin with zero although the first coordinate of the point is not zero, then the verifier of the opening protocol rejects, unless a challenge or the secret falls into a set of bad values that is fixed before it is drawn. For polynomials of degree at most N and a point with d coordinates these are at most 45 values of the batching challenge, (2N + 2) 2^d + (d+1)^2 2^d of the folding challenge, one of the second batching challenge, N + 4d of the evaluation point and N + 1 of the secret.",
  "all polynomials, points and claimed values, all messages of the prover, every choice of challenges that may depend on everything sent before, every bilinear pairing with e(g1, g2) not zero, every field in which 2 is not 0",
  "Soundness is about all dishonest provers; a test only tries a few changed proofs.",
  ["co-noir/ultrahonk/src/decider/shplemini/shplemini_verifier.rs: compute_batch_opening_claim, reduce_verify_shplemini, compute_fold_pos_evaluations, batch_gemini_claims_received_from_prover, compute_inverted_gemini_denominators", "co-noir/ultrahonk/src/decider/decider_verifier.rs: pairing_check, verify"])

p("C124", "UltraHonk is sound: an algebraic prover cannot make an accepted proof of a false statement",
  "Let no assignment satisfy a program with certain public inputs, and let the verification key be made from the program alone with a reference string of powers of a secret. Let a prover know the polynomial behind every point that they send, with no more coefficients than the reference string has points, and let these polynomials not depend on the secret. Then whatever they send, the verifier does not accept it with these public inputs, unless a challenge or the secret falls into a set of bad values that is fixed before it is drawn. If the polynomials have no more coefficients than the circuit has rows, then for a circuit of n rows and d rounds of the sumcheck these are at most 103 n^2 values of beta, 9 n of gamma, 27 of alpha, n - 1 of the gate challenge, 7 of each challenge of the sumcheck and zero for the first one, and in the opening 45, (2n + (d+1)^2) 2^d, 1 and n + 4d values, and n of the secret.",
  "every program of AssertZero and RANGE opcodes with public inputs, every false statement, all polynomials, univariates and values that a prover may send, every choice of challenges that may depend on everything sent before, every long enough reference string, every bilinear pairing with e(g1, g2) not zero, with and without padding to the constant proof size, every prime field that is large enough for the circuit",
  "Soundness is about all dishonest provers; a test only tries a few changed proofs.",
  ["co-noir/ultrahonk/src/ultra_verifier.rs: verify", "co-noir/ultrahonk/src/oink/oink_verifier.rs: verify", "co-noir/ultrahonk/src/decider/decider_verifier.rs: verify", "co-noir/ultrahonk/src/decider/shplemini/shplemini_verifier.rs: compute_batch_opening_claim, reduce_verify_shplemini", "co-noir/co-builder/src/ultra_builder.rs: create_circuit, create_vk_barretenberg"])

if __name__ == "__main__":
    out = os.path.join(os.path.dirname(os.path.dirname(os.path.abspath(__file__))), "properties.jsonl")
    with open(out, "w") as f:
        for x in P:
            f.write(json.dumps(x, ensure_ascii=False) + "\n")
    print(len(P))
