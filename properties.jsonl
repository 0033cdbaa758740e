{"id": "C01", "title": "Rep3 field sharing round-trips", "statement": "Sharing a field element (or a vector of them) into three replicated shares and combining the three shares returns exactly the original element(s), whatever the randomness was; the maybe-shared variant keeps absent entries absent and public positions aligned.", "quantifier": "every field, every secret / every vector of secrets of any length, every random tape", "why_tests_cant": "The field has about 2^254 elements and the randomness is unbounded; tests sample a few secrets and one seed.", "anchors": ["mpc-core/src/protocols/rep3.rs: share_field_element, share_field_elements, share_maybe_field_elements, combine_field_element, combine_field_elements"]}
{"id": "C02", "title": "Rep3 additive and seeded sharing round-trips", "statement": "Additive sharing and compressed (seed) sharing reconstruct the secret: expanding the seeds at the parties and combining gives the original vector, and a replicated seeded share whose two halves expand to different lengths is rejected instead of silently truncated.", "quantifier": "every secret vector, every seed expansion function, every pair of seeds", "why_tests_cant": "Depends on all seeds and lengths.", "anchors": ["mpc-core/src/protocols/rep3.rs: share_field_element_additive, share_field_elements_seeded, SeededType, ReplicatedSeedType"]}
{"id": "C03", "title": "Binary and curve-point sharing round-trips", "statement": "Sharing a value by XOR, and sharing a curve point, then combining the three shares returns the original value.", "quantifier": "every bit-string of the share width / every group element, all randomness", "why_tests_cant": "Infinite/huge domain.", "anchors": ["mpc-core/src/protocols/rep3.rs: share_biguint/share_binary, share_curve_point, combine_binary_element, combine_curve_point"]}
{"id": "C04", "title": "A single Rep3 share reveals nothing", "statement": "The share given to any single party has the same distribution for every secret: for each party, each possible share value and any two secrets, exactly as many random tapes of the dealer produce that share for one secret as for the other.", "quantifier": "every finite field, both secrets, each party, each view", "why_tests_cant": "A distributional statement over all randomness; no finite number of runs decides it.", "anchors": ["mpc-core/src/protocols/rep3.rs: share_field_element, share_binary, share_curve_point"]}
{"id": "C05", "title": "Shares stay replicated", "statement": "After any operation the second half of each party's share equals the first half held by the previous party, so any two parties hold the whole secret and all parties agree on it.", "quantifier": "every operation of the arithmetic and binary protocols, every input, every state", "why_tests_cant": "Invariant over arbitrary operation histories.", "anchors": ["mpc-core/src/protocols/rep3/arithmetic.rs", "mpc-core/src/protocols/rep3/binary.rs", "mpc-core/src/protocols/rep3/conversion.rs"]}
{"id": "C06", "title": "Local linear operations are correct", "statement": "Addition, subtraction, negation, multiplication by a public value, adding/subtracting a public value on either side and promoting a public value give shares of exactly the corresponding plain result without any communication.", "quantifier": "every field, all operands, all valid sharings", "why_tests_cant": "Party-specific cases (only two of three parties change a share) must line up for all values.", "anchors": ["mpc-core/src/protocols/rep3/arithmetic.rs: add, sub, add_public, sub_shared_by_public, sub_public_by_shared, neg, mul_public, promote_to_trivial_share"]}
{"id": "C07", "title": "Secret multiplication is correct", "statement": "Multiplying two shared values yields a fresh valid sharing of the product at all three parties, for all correlated randomness and all message interleavings.", "quantifier": "every field, operands, sharings, correlated generator states, schedules", "why_tests_cant": "Needs every masking value and every schedule.", "anchors": ["mpc-core/src/protocols/rep3/arithmetic.rs: mul, add_mul", "mpc-core/src/protocols/rep3/network.rs: reshare"]}
{"id": "C08", "title": "Vector multiplication is element-wise multiplication", "statement": "mul_vec returns, position by position, sharings of the products and keeps the length; add_mul and local_mul_vec + reshare_vec agree with it; a peer message of the wrong length is an error, never a truncated result.", "quantifier": "vectors of every length, all values, all randomness", "why_tests_cant": "Unbounded lengths.", "anchors": ["mpc-core/src/protocols/rep3/arithmetic.rs: mul_vec, local_mul_vec, reshare_vec"]}
{"id": "C09", "title": "Opening returns the secret to everybody", "statement": "open and open_vec make all three parties learn the same value(s), which is the shared secret.", "quantifier": "all valid sharings, all schedules", "why_tests_cant": "All values and interleavings.", "anchors": ["mpc-core/src/protocols/rep3/arithmetic.rs: open, open_bit, open_vec"]}
{"id": "C10", "title": "Multiply-and-open returns the product to everybody", "statement": "mul_open and mul_open_vec return to every party the plain product of the two secrets.", "quantifier": "all sharings, randomness, schedules", "why_tests_cant": "All values and interleavings.", "anchors": ["mpc-core/src/protocols/rep3/arithmetic.rs: mul_open, mul_open_vec"]}
{"id": "C11", "title": "Inversion and division", "statement": "inv on a shared value returns either an error at all three parties or a valid sharing of the multiplicative inverse; it never returns a wrong inverse; with secret zero it always errors; with a nonzero secret it errors only when the jointly drawn random mask is zero. div, div_public_by_shared, div_shared_by_public and the vector form behave accordingly.", "quantifier": "every field, secret, random mask, schedule", "why_tests_cant": "The failing mask has probability 2^-254 and consistency of failure across parties cannot be sampled.", "anchors": ["mpc-core/src/protocols/rep3/arithmetic.rs: inv, inv_vec, div, div_shared_by_public, div_public_by_shared"]}
{"id": "C12", "title": "Square root", "statement": "sqrt of a shared value returns, whenever it succeeds, a sharing of a value whose square is the secret, and fails at all parties or at none.", "quantifier": "every field, secret, masks, and every square-root subroutine that is correct", "why_tests_cant": "All field elements and masks.", "anchors": ["mpc-core/src/protocols/rep3/arithmetic.rs: sqrt"]}
{"id": "C13", "title": "Oblivious selection", "statement": "cmux returns the truthy input when the shared condition is one and the falsy input when it is zero; the vector form does it position-wise.", "quantifier": "all inputs, conditions, randomness, lengths", "why_tests_cant": "All values.", "anchors": ["mpc-core/src/protocols/rep3/arithmetic.rs: cmux, cmux_vec", "mpc-core/src/protocols/rep3/binary.rs: cmux, cmux_many"]}
{"id": "C14", "title": "Exponentiation by a public exponent", "statement": "pow_public computes the exact power for every public exponent (exponent zero gives one).", "quantifier": "every base, every exponent", "why_tests_cant": "Square-and-multiply loop over unbounded exponents.", "anchors": ["mpc-core/src/protocols/rep3/arithmetic.rs: pow_public", "mpc-core/src/protocols/rep3_ring/arithmetic.rs: pow_public"]}
{"id": "C15", "title": "Correlated randomness never drifts apart", "statement": "Along any sequence of randomness requests and state forks, the three parties' generators stay pairwise synchronised, so at every point the masks the parties add sum to zero (XOR to zero, sum to the neutral point).", "quantifier": "every finite history of draws and forks of any types, every generator", "why_tests_cant": "Histories are unbounded; a drift shows only as a wrong result much later.", "anchors": ["mpc-core/src/protocols/rep3/rngs.rs: Rep3Rand, Rep3CorrelatedRng::fork", "mpc-core/src/protocols/rep3.rs: Rep3State::fork"]}
{"id": "C16", "title": "State setup synchronises all generators", "statement": "After Rep3State::new has run at the three parties over the network, the pairwise seeds and the bit-composition seeds agree exactly as later protocols require, under every interleaving of the setup messages.", "quantifier": "every choice of fresh seeds at the parties, every schedule", "why_tests_cant": "Interleavings and seeds.", "anchors": ["mpc-core/src/protocols/rep3.rs: Rep3State::new, setup_prf, setup_bitcomp"]}
{"id": "C17", "title": "Outcome does not depend on the schedule", "statement": "For parties that are deterministic given their inputs and seeds and communicate over reliable FIFO channels, if one interleaving lets all parties finish then every interleaving is finite, never deadlocks and produces identical results and transcripts.", "quantifier": "every program of sends and receives, every number of parties, every interleaving", "why_tests_cant": "The number of interleavings is exponential.", "anchors": ["mpc-net/src/lib.rs: Network", "mpc-core/src/protocols/rep3/network.rs", "mpc-core/src/protocols/shamir/network.rs"]}
{"id": "C18", "title": "Resharing from two to three parties", "statement": "When the recipient has no input and the two others hold a replicated sharing, resharing gives all three parties a valid sharing of the same secrets, for every choice of the recipient; a non-recipient without input is an error.", "quantifier": "each recipient, all vectors, all randomness", "why_tests_cant": "All values, all three recipients.", "anchors": ["mpc-core/src/protocols/rep3/arithmetic.rs: reshare_from_2_to_3_parties"]}
{"id": "C19", "title": "Arithmetic XOR of shared bits", "statement": "arithmetic_xor of two shared bits gives a sharing of their exclusive or, and in general a sharing of x+y-2xy; the vector form is position-wise.", "quantifier": "all inputs and randomness", "why_tests_cant": "All values.", "anchors": ["mpc-core/src/protocols/rep3/arithmetic.rs: arithmetic_xor, arithmetic_xor_many"]}
{"id": "C20", "title": "Every MPC program computes its plain counterpart", "statement": "Any program built from linear operations, multiplication, selection, exponentiation and opening, run by three parties on valid shares, ends at all parties with valid shares of exactly the values the same program computes in plain.", "quantifier": "every program (any size), every input, every schedule and randomness", "why_tests_cant": "Quantifies over programs.", "anchors": ["mpc-core/src/protocols/rep3/arithmetic.rs"]}
{"id": "C21", "title": "Arithmetic circuits leak nothing to one party", "statement": "In any circuit of linear gates and multiplications the messages a single party receives have the same distribution for any two sets of inputs that give that party the same shares.", "quantifier": "every circuit, each party, all inputs, over the uniformly random tape of the other parties", "why_tests_cant": "Distributional statement for all circuits.", "anchors": ["mpc-core/src/protocols/rep3/arithmetic.rs: mul, mul_vec", "mpc-core/src/protocols/rep3/rngs.rs: masking_field_element"]}
{"id": "C22", "title": "Common randomness agrees at all parties", "statement": "generate_shared returns the same value at the three parties.", "quantifier": "every history of protocol operations before the call", "why_tests_cant": "Depends on the history; it fails only after particular earlier operations.", "anchors": ["mpc-core/src/protocols/rep3/rngs.rs: generate_shared", "co-noir/co-acvm/src/mpc/rep3.rs: common_rng_seed"]}
{"id": "C23", "title": "Shared binary addition modulo p and modulo 2^k", "statement": "The logarithmic-depth adders applied to XOR-shared summands give XOR-shares of the sum modulo p (inputs below p) or of the plain sum / the sum modulo 2^k; the subtractors give the difference together with the correct borrow information.", "quantifier": "every modulus, every width satisfying the documented contract, all inputs", "why_tests_cant": "Carry propagation over all widths and inputs.", "anchors": ["mpc-core/src/protocols/rep3/detail.rs: low_depth_binary_add_mod_p, low_depth_binary_add, low_depth_binary_sub, low_depth_binary_sub_p", "mpc-core/src/protocols/rep3_ring/detail.rs"]}
{"id": "C24", "title": "Arithmetic to binary conversion", "statement": "a2b of a shared field element yields XOR-shares of its canonical representative in [0,p); the vector form is position-wise.", "quantifier": "every prime, every element, every randomness, every width meeting the contract", "why_tests_cant": "Wrap-around cases depend on the individual shares.", "anchors": ["mpc-core/src/protocols/rep3/conversion.rs: a2b, a2b_many, a2b_selector"]}
{"id": "C25", "title": "Binary to arithmetic conversion", "statement": "b2a of XOR-shares of an integer below p yields a valid sharing of that integer as a field element; converting to binary and back is the identity.", "quantifier": "every prime, every integer below p, all randomness", "why_tests_cant": "All values and masks.", "anchors": ["mpc-core/src/protocols/rep3/conversion.rs: b2a, b2a_many, b2a_selector"]}
{"id": "C26", "title": "Bit injection", "statement": "bit_inject turns an XOR-shared bit into a valid arithmetic sharing of 0 or 1 with the same meaning; vector forms are position-wise.", "quantifier": "every field, each bit sharing, all randomness, all lengths", "why_tests_cant": "All masks and lengths.", "anchors": ["mpc-core/src/protocols/rep3/conversion.rs: bit_inject, bit_inject_many, bit_inject_from_bits"]}
{"id": "C27", "title": "Comparisons agree with integers", "statement": "lt, le, gt, ge and their public variants return shares of the truth value of comparing the canonical representatives in [0,p) as integers.", "quantifier": "every prime and width meeting the contract, all operands including equal ones and zero, all randomness; states set to either conversion (direct, or garbled circuits, the default)", "why_tests_cant": "Boundary cases across 2^254 values.", "anchors": ["mpc-core/src/protocols/rep3/arithmetic.rs: lt, le, gt, ge, *_public", "mpc-core/src/protocols/rep3/detail.rs: unsigned_ge*"]}
{"id": "C28", "title": "Equality and zero tests", "statement": "eq, neq, is_zero and their public and vector variants return shares (or the opened bool) of the exact truth value.", "quantifier": "all operands, all randomness, all lengths; states set to either conversion (direct, or garbled circuits, the default)", "why_tests_cant": "False positives would need special values.", "anchors": ["mpc-core/src/protocols/rep3/arithmetic.rs: eq, eq_public, neq, is_zero, eq_bit_many", "mpc-core/src/protocols/rep3/binary.rs: is_zero, is_zero_many"]}
{"id": "C29", "title": "Bitwise operations on XOR shares", "statement": "xor, or, and, their public variants, left/right shifts and the select operation give XOR shares of the bitwise result.", "quantifier": "all widths, all operands, all randomness", "why_tests_cant": "All values.", "anchors": ["mpc-core/src/protocols/rep3/binary.rs", "mpc-core/src/protocols/rep3_ring/binary.rs"]}
{"id": "C30", "title": "OR-tree", "statement": "or_tree over any non-empty list of shared bits yields shares of the disjunction of all of them, for every list length (odd or even).", "quantifier": "lists of every length", "why_tests_cant": "Tree shape depends on the length.", "anchors": ["mpc-core/src/protocols/rep3/binary.rs: or_tree", "mpc-core/src/protocols/rep3_ring/binary.rs: or_tree"]}
{"id": "C31", "title": "Secret shift amounts", "statement": "shift_l_public_by_shared multiplies a public value by 2^s for a shared s; it is exact for all shift amounts below 256.", "quantifier": "all public values and shift amounts; states set to either conversion (direct, or garbled circuits, the default)", "why_tests_cant": "All values.", "anchors": ["mpc-core/src/protocols/rep3/binary.rs: shift_l_public_by_shared"]}
{"id": "C32", "title": "Shamir sharing round-trips from every quorum", "statement": "Combining any list of more than t consistent shares at pairwise distinct points returns the secret, too few shares is an error; sharing vectors and points behaves the same.", "quantifier": "every field, secret, degree, polynomial randomness, set of parties", "why_tests_cant": "All subsets, degrees and randomness.", "anchors": ["mpc-core/src/protocols/shamir.rs: share_field_element, combine_field_element, share_field_elements, combine_field_elements, share_curve_point, combine_curve_point"]}
{"id": "C33", "title": "t Shamir shares reveal nothing", "statement": "Any t of the shares produced by a degree-t sharing have a distribution that does not depend on the secret.", "quantifier": "every finite field with enough points, every t, every set of t parties, any two secrets", "why_tests_cant": "Distributional statement.", "anchors": ["mpc-core/src/protocols/shamir.rs: share"]}
{"id": "C34", "title": "Shamir linear operations and promotion", "statement": "add, sub, neg, multiplication by a public value, adding a public value and promoting a public value give degree-t sharings of the plain result.", "quantifier": "all n, t, operands, sharings", "why_tests_cant": "All values.", "anchors": ["mpc-core/src/protocols/shamir/arithmetic.rs"]}
{"id": "C35", "title": "Shamir multiplication", "statement": "mul and mul_vec (local product followed by king-based degree reduction) give every party a degree-t share of the product, for all preprocessing randomness and every schedule.", "quantifier": "all n >= 2t+1, operands, sharings, double sharings, schedules", "why_tests_cant": "All n and t.", "anchors": ["mpc-core/src/protocols/shamir/arithmetic.rs: mul, mul_vec", "mpc-core/src/protocols/shamir/network.rs: degree_reduce, degree_reduce_many"]}
{"id": "C36", "title": "Shamir opening", "statement": "open, open_vec, mul_open return the same correct value to all n parties.", "quantifier": "all n, t, sharings, schedules", "why_tests_cant": "All n, t.", "anchors": ["mpc-core/src/protocols/shamir/arithmetic.rs: open, open_vec, mul_open", "mpc-core/src/protocols/shamir/network.rs: broadcast_next"]}
{"id": "C37", "title": "Double sharings are consistent", "statement": "Every pair produced by preprocessing is a degree-t and a degree-2t sharing of the same value.", "quantifier": "all n, t, all random tapes", "why_tests_cant": "Depends on all parties' contributions.", "anchors": ["mpc-core/src/protocols/shamir/rngs.rs: random_double_share, buffer_triples"]}
{"id": "C38", "title": "Preprocessing pairs are used once", "statement": "get_pair and fork hand out every buffered pair at most once and the same pair at every party, refilling on demand; fork with too large an amount fails.", "quantifier": "every history of get_pair and fork calls", "why_tests_cant": "Histories are unbounded.", "anchors": ["mpc-core/src/protocols/shamir.rs: ShamirState::get_pair, fork", "mpc-core/src/protocols/shamir/rngs.rs: fork_with_pairs"]}
{"id": "C39", "title": "Rep3 to Shamir translation", "statement": "Translating a replicated sharing (or an additive sharing) of a value gives a degree-1 Shamir sharing of the same value among three parties.", "quantifier": "every field, all sharings", "why_tests_cant": "All values.", "anchors": ["mpc-core/src/protocols/bridges/rep3_to_shamir.rs"]}
{"id": "C40", "title": "Polynomial evaluation on shares", "statement": "eval_poly on shared coefficients gives shares of the polynomial's value at the public point, independent of how the work is split into chunks.", "quantifier": "every coefficient list, point and chunk size", "why_tests_cant": "Chunking depends on the number of threads.", "anchors": ["mpc-core/src/protocols/rep3/poly.rs", "mpc-core/src/protocols/shamir/poly.rs"]}
{"id": "C41", "title": "Shared curve points", "statement": "Addition, subtraction, public and secret scalar multiplication, multi-scalar multiplication, promotion and opening of shared points match the group operations.", "quantifier": "every group, all points, scalars, randomness", "why_tests_cant": "All values.", "anchors": ["mpc-core/src/protocols/rep3/pointshare.rs", "mpc-core/src/protocols/shamir/pointshare.rs"]}
{"id": "C42", "title": "Ring sharing and arithmetic", "statement": "Over integers modulo 2^k: sharing round-trips, linear operations, multiplication, opening and selection are exact modulo 2^k, including one-bit rings.", "quantifier": "every k, all operands, sharings, randomness", "why_tests_cant": "All values.", "anchors": ["mpc-core/src/protocols/rep3_ring/arithmetic.rs", "mpc-core/src/protocols/rep3_ring.rs"]}
{"id": "C43", "title": "Ring comparisons and conversions", "statement": "Comparisons over k-bit integers are the unsigned integer comparisons; a2b, b2a are inverse conversions.", "quantifier": "every k, all operands, randomness", "why_tests_cant": "Boundary cases.", "anchors": ["mpc-core/src/protocols/rep3_ring/detail.rs", "mpc-core/src/protocols/rep3_ring/conversion.rs"]}
{"id": "C44", "title": "Casts between rings and fields", "statement": "Downcast keeps the value modulo the smaller modulus, upcast keeps the integer value, ring to field keeps the integer value and field to ring reduces it modulo 2^k.", "quantifier": "every pair of widths, all values", "why_tests_cant": "All widths and values.", "anchors": ["mpc-core/src/protocols/rep3_ring/casts.rs"]}
{"id": "C45", "title": "One-hot vectors", "statement": "ohv of a shared k-bit index is the shared vector of length 2^k that is one exactly at the index.", "quantifier": "every k >= 1, every index, all randomness", "why_tests_cant": "Recursive doubling for all k.", "anchors": ["mpc-core/src/protocols/rep3_ring/gadgets/ohv.rs: ohv, rand_ohv"]}
{"id": "C46", "title": "Oblivious table lookup and update", "statement": "Reading a public or shared table at a shared index below its length returns the entry at that index; writing changes exactly that entry.", "quantifier": "every table length >= 2, every in-range index, all randomness", "why_tests_cant": "All table sizes and indices.", "anchors": ["mpc-core/src/protocols/rep3_ring/gadgets/lut_field.rs", "mpc-core/src/lut.rs"]}
{"id": "C47", "title": "Batched lookups with tables of different size", "statement": "The batched public lookup treats shorter tables as padded with zero.", "quantifier": "every list of tables", "why_tests_cant": "Needs tables of different length.", "anchors": ["mpc-core/src/protocols/rep3_ring/gadgets/lut_field.rs: read_multiple_public_lut_low_depth"]}
{"id": "C48", "title": "Oblivious permutation", "statement": "Shuffling and un-shuffling with the parties' joint random permutation are inverse; applying the inverse of a shared permutation and composing shared permutations are exact.", "quantifier": "every length, every permutation, all randomness", "why_tests_cant": "All permutations.", "anchors": ["mpc-core/src/protocols/rep3_ring/gadgets/sort.rs: shuffle, unshuffle, shuffle_reveal, apply_inv, compose"]}
{"id": "C49", "title": "Radix sort sorts", "statement": "radix_sort_fields returns a permutation of its inputs that is sorted by the low bits, stable, for all inputs and all random permutations; radix_sort_fields_vec_by orders every given vector by private and public keys; too many inputs or a bit size above the integer width are refused by all parties.", "quantifier": "every list length, every bit size from one to the integer width, all values, all randomness, all schedules on both networks", "why_tests_cant": "All inputs and permutations.", "anchors": ["mpc-core/src/protocols/rep3_ring/gadgets/sort.rs: radix_sort_fields, gen_perm, gen_bit_perm"]}
{"id": "C50", "title": "Garbled gates decode correctly", "statement": "For every AND gate garbled with the half-gates scheme and every pair of input labels the evaluator obtains exactly the output label that encodes the conjunction; XOR and NOT are free.", "quantifier": "every hash function, every global offset with colour bit one, all labels, all bits", "why_tests_cant": "Labels are 128 bits.", "anchors": ["mpc-core/src/protocols/rep3/yao.rs: garble_and_gate, evaluate_and_gate", "mpc-core/src/protocols/rep3/yao/garbler.rs", "mpc-core/src/protocols/rep3/yao/evaluator.rs"]}
{"id": "C51", "title": "Garbled arithmetic circuits", "statement": "The ripple adders, subtractors, modular adder, comparison, multiplexer and divider circuits compute the corresponding integer functions.", "quantifier": "every width, all inputs", "why_tests_cant": "All widths and inputs.", "anchors": ["mpc-core/src/protocols/rep3/yao/circuits.rs: bin_addition, bin_subtraction, adder_mod_p, bin_div, unsigned_ge"]}
{"id": "C52", "title": "Adding a public constant inside a circuit", "statement": "The constant adder circuit adds its public constant modulo 2^n.", "quantifier": "every constant and width", "why_tests_cant": "Wrong only for particular constants.", "anchors": ["mpc-core/src/protocols/rep3/yao/circuits.rs: bin_addition_constant_no_carry, half_adder_const"]}
{"id": "C53", "title": "Merge-sort network sorts", "statement": "The Batcher odd-even merge network outputs its inputs in ascending order.", "quantifier": "every list length, all values", "why_tests_cant": "All lengths.", "anchors": ["mpc-core/src/protocols/rep3/yao/circuits.rs: batcher_odd_even_merge_sort_inner"]}
{"id": "C54", "title": "Promoted points convert correctly", "statement": "A public curve point promoted to a trivial sharing converts to field-coordinate shares of that point, and the shared zero test on it answers correctly.", "quantifier": "every curve point", "why_tests_cant": "Fails only for special multiples of the generator.", "anchors": ["mpc-core/src/protocols/rep3/pointshare.rs: promote_to_trivial_share, is_zero", "mpc-core/src/protocols/rep3/conversion.rs: point_share_to_fieldshares"]}
{"id": "C55", "title": "Shamir inversion and division", "statement": "Inverting a shared value (or a vector, or dividing by a shared value) either gives every party its share of the inverse (quotient), or fails at every party; it fails exactly when the value or the random mask is zero.", "quantifier": "all values and masks, every reachable state, every schedule", "why_tests_cant": "Zero masks are random events; agreement of all parties is about every schedule.", "anchors": ["mpc-core/src/protocols/shamir/arithmetic.rs: inv, inv_vec, div, div_shared_by_public, div_public_by_shared"]}
{"id": "C56", "title": "Opening reveals nothing but the opened value", "statement": "Opening a shared value, or the product of two shared values, tells any t parties nothing beyond their own shares and the opened value.", "quantifier": "all sharings, every coalition of t parties, every schedule", "why_tests_cant": "A statement about what is not learnt.", "anchors": ["mpc-core/src/protocols/shamir/arithmetic.rs: open, mul_open", "mpc-core/src/protocols/shamir/network.rs: broadcast_next"]}
{"id": "C57", "title": "Points convert to coordinates", "statement": "Converting a shared curve point to shared coordinates gives the coordinates and the infinity flag of exactly that point, and the shared zero test says whether it is the point at infinity, provided no component of the sharing is zero and the sum of the first two components is neither zero nor equal to the third; a party holding a zero component panics; otherwise the conversion fails only, and then at all parties alike, when the random value blinding the inversion is zero. The same holds element-wise for vectors.", "quantifier": "every curve y^2 = x^3 + a x + b over every prime field, every point and every sharing meeting the condition, vectors of every length, all randomness and schedules", "why_tests_cant": "Affine formulas have exceptional cases that random tests never meet.", "anchors": ["mpc-core/src/protocols/rep3/conversion.rs: point_share_to_fieldshares, point_share_to_fieldshares_many", "mpc-core/src/protocols/rep3/pointshare.rs: is_zero, is_zero_many", "mpc-core/src/protocols/rep3/detail.rs: point_addition, point_addition_many"]}
{"id": "C58", "title": "Coordinates convert to points", "statement": "Converting shared coordinates with a shared infinity flag gives a sharing of exactly the described point (the point at infinity when the flag is one, whatever the coordinates), unless the blinding point drawn by party 2 is zero or shares its first coordinate with the input; it fails only, and then at all parties alike, when the random value blinding the inversion is zero. The same holds element-wise for vectors.", "quantifier": "every curve, every point, every sharing of its coordinates, vectors of every length, all randomness and schedules", "why_tests_cant": "Exceptional cases and the mapping of the three parties' roles to the components must be right for all values.", "anchors": ["mpc-core/src/protocols/rep3/conversion.rs: fieldshares_to_pointshare, fieldshares_to_pointshare_many"]}
{"id": "C59", "title": "Converting points reveals nothing", "statement": "Converting shared points to shared coordinates tells no single party anything about the points or relations between them.", "quantifier": "every vector of shared points, every party, all randomness", "why_tests_cant": "A statement about what is not learnt.", "anchors": ["mpc-core/src/protocols/rep3/conversion.rs: point_share_to_fieldshares_pre, point_share_to_fieldshares_pre_many"]}
{"id": "C60", "title": "Oblivious tables of curve points", "statement": "Reading a public or shared table of points at a shared index below its length returns the point at that index, also when several public tables are read at once; writing changes exactly that entry.", "quantifier": "every table length >= 2, every number of tables, every in-range index, all randomness", "why_tests_cant": "All table sizes, numbers of tables and indices.", "anchors": ["mpc-core/src/protocols/rep3_ring/lut_curve.rs", "mpc-core/src/protocols/rep3_ring/gadgets/lut_curve.rs: read_public_lut, read_public_luts, read_shared_lut, write_lut"]}
{"id": "C61", "title": "Concurrent sub-protocols do not interfere", "statement": "Running two closures at the same time on two networks with forked states gives every party the results that the closures give when run one after the other; if the first fails at all parties, all calls fail and nobody hangs.", "quantifier": "any parties, any closures, every interleaving of all threads of all parties", "why_tests_cant": "The interleavings of six threads cannot be enumerated by tests.", "anchors": ["mpc-net/src/lib.rs: join", "mpc-core/src/protocols/rep3.rs: fork", "mpc-core/src/protocols/rep3_ring/gadgets/lut_field.rs: read_public_lut_low_depth"]}
{"id": "C62", "title": "Verified netlists evaluate", "statement": "A Bristol-fashion netlist that passes verification evaluates on every input of the right shape, no gate reads a wire before it was set, and the result does not depend on the default value of the wires.", "quantifier": "every netlist, all inputs, every type of wires", "why_tests_cant": "All netlists.", "anchors": ["mpc-core/src/protocols/rep3/yao/bristol_fashion/bristol.rs: evaluate_with_default", "mpc-core/src/protocols/rep3/yao/bristol_fashion/bristol/builder.rs: verify"]}
{"id": "C63", "title": "Shares become wire labels", "statement": "The two garblers draw the same offset with colour bit one and the evaluator gets none; converting an arithmetic sharing (one value, a vector, or gate by gate in a stream) or a binary sharing to garbled-circuit wires leaves both garblers with the same zero labels and the evaluator with the labels of exactly the bits of the shared value.", "quantifier": "every odd modulus, all values and sharings, vectors of every length, all randomness, every hash function, every schedule of the three parties", "why_tests_cant": "Three parties, two roles, all values and all random streams.", "anchors": ["mpc-core/src/protocols/rep3/conversion.rs: a2y, a2y_streaming, a2y_many, b2y", "mpc-core/src/protocols/rep3/yao.rs: joint_input_arithmetic_added, joint_input_binary_xored", "mpc-core/src/protocols/rep3/rngs.rs: generate_random_garbler_delta"]}
{"id": "C64", "title": "Arithmetic to binary through a garbled circuit", "statement": "Converting an arithmetic sharing to a binary one through a garbled circuit, streamed or not, one value or a vector, gives a binary sharing of the canonical representative, as the direct conversion does.", "quantifier": "every odd modulus, all values, sharings, lengths and randomness, every hash function, every schedule", "why_tests_cant": "All values and all random streams.", "anchors": ["mpc-core/src/protocols/rep3/conversion.rs: y2b, y2b_many, a2y2b, a2y2b_streaming, a2y2b_many"]}
{"id": "C65", "title": "Binary to arithmetic through a garbled circuit", "statement": "Converting wire labels, or a binary sharing of a number below the modulus, to an arithmetic sharing through a garbled circuit gives a sharing of that number, unless the output hash maps the two labels of an output wire to the same value.", "quantifier": "every odd modulus, all values below it, all sharings and randomness, every hash function, every schedule", "why_tests_cant": "All values and all random streams; hash collisions cannot be provoked by tests.", "anchors": ["mpc-core/src/protocols/rep3/conversion.rs: y2a, y2a_streaming, b2y2a, b2y2a_streaming", "mpc-core/src/protocols/rep3/yao/evaluator.rs: output_to_id0_and_id1", "mpc-core/src/protocols/rep3/yao/garbler.rs: output_to_id0_and_id1"]}
{"id": "C66", "title": "Integer division of field elements", "statement": "Dividing shared field elements as integers (shared by shared, shared by public, public by shared, or by a power of two of any size; one pair or vectors) gives sharings of the quotients of the canonical representatives, for non-zero divisors.", "quantifier": "every odd modulus, all dividends and non-zero divisors, every vector length, both settings of the share conversion, all randomness, every hash without collisions on the two labels of a wire, every schedule", "why_tests_cant": "All pairs of values of a 254 bit field and all random streams.", "anchors": ["mpc-core/src/protocols/rep3/yao.rs: field_int_div, field_int_div_many, field_int_div_by_public, field_int_div_by_shared, field_int_div_power_2", "mpc-core/src/protocols/rep3/yao/circuits.rs: field_int_div, field_int_div_by_public, field_int_div_by_shared, field_int_div_power_2_many"]}
{"id": "C67", "title": "Pieces of field elements", "statement": "Decomposing shared field elements gives sharings of the digits in base 2^size of the lowest bits asked for; taking the remainder modulo 2^n and slicing give exactly those bits of the canonical representative.", "quantifier": "every odd modulus, all values, every total up to the bit size, every piece size (also when it does not divide the total), every pair of cut points, vectors of every length, all randomness and schedules", "why_tests_cant": "All values, sizes and cut points.", "anchors": ["mpc-core/src/protocols/rep3/yao.rs: decompose_arithmetic, decompose_arithmetic_many, slice_arithmetic, slice_arithmetic_many, field_mod_power_2", "mpc-core/src/protocols/rep3/yao/circuits.rs: decompose_field_element_many, slice_field_element_many, field_int_mod_power_2"]}
{"id": "C68", "title": "Integer division of ring elements", "statement": "Dividing shared ring elements as unsigned numbers (shared by shared, shared by public, public by shared, or by a power of two of any size; one pair or vectors) gives sharings of the quotients, for non-zero divisors.", "quantifier": "every ring size, all dividends and non-zero divisors, every vector length, all randomness and schedules", "why_tests_cant": "All pairs of values of all ring sizes.", "anchors": ["mpc-core/src/protocols/rep3_ring/yao.rs: ring_div, ring_div_many, ring_div_by_public, ring_div_by_shared, ring_div_power_2", "mpc-core/src/protocols/rep3/yao/circuits.rs: ring_div_many, ring_div_by_public_many, ring_div_by_shared_many"]}
{"id": "C69", "title": "Limbs across fields and rings", "statement": "Decomposing a shared field element into shared ring elements gives the digits of its canonical representative; dividing a shared ring element by a public number into field limbs gives the limbs of the quotient and of the remainder.", "quantifier": "every odd modulus, ring size, limb size and number of limbs that fit, all values, vectors of every length, all randomness and schedules", "why_tests_cant": "All values, sizes and numbers of limbs.", "anchors": ["mpc-core/src/protocols/rep3_ring/yao.rs: decompose_field_to_rings, decompose_field_to_rings_many, ring_div_by_public_to_limbs, ring_div_by_public_to_limbs_many"]}
{"id": "C70", "title": "Conversions of ring elements through garbled circuits", "statement": "Through garbled circuits, streamed or not, a ring element goes from additive to binary sharing and back unchanged; into a wider ring its unsigned value is unchanged; from the field into a ring it is the remainder of the canonical representative; from a ring into the field, for values below the modulus, it is the same number.", "quantifier": "every ring size and odd modulus, all values, vectors of every length, all randomness and schedules", "why_tests_cant": "All values and all random streams.", "anchors": ["mpc-core/src/protocols/rep3_ring/conversion.rs: a2y2b, a2y2b_streaming, b2y2a, b2y2a_streaming", "mpc-core/src/protocols/rep3_ring/yao.rs: field_to_ring_many, ring_to_field_many, upcast_many", "mpc-core/src/protocols/rep3_ring/casts.rs"]}
{"id": "C71", "title": "Poseidon2 in the clear", "statement": "For every parameter set the constructor accepts (non-empty state, and the standard diagonal for states of two and three elements) the permutation is the one of the Poseidon2 paper, given by its matrices, round constants and power; ill-formed parameters are rejected.", "quantifier": "every commutative ring, state size, degree, number of rounds, all constants, all states", "why_tests_cant": "All parameter sets and states; the optimised linear layers have one code path per state size.", "anchors": ["mpc-core/src/gadgets/poseidon2/poseidon2_params.rs: new", "mpc-core/src/gadgets/poseidon2/poseidon2_permutation.rs: permutation, matmul_external, matmul_internal"]}
{"id": "C72", "title": "Poseidon2 on replicated shares", "statement": "On sharings of states the permutation (directly, with precomputed powers, packed, or on additive shares) gives a sharing of the permuted state; the precomputation gives sharings of random values and their powers; a pool made for n permutations serves n permutations one after the other, and for any further one all parties panic before a precomputed value is used a second time.", "quantifier": "every field, parameter set with degree five, state, number of packed states, history of uses of the pool, all randomness and schedules", "why_tests_cant": "All states, pools and histories; a reused mask does not change any output.", "anchors": ["mpc-core/src/gadgets/poseidon2/rep3.rs: precompute_rep3, precompute_rep3_additive, rep3_permutation_in_place, rep3_permutation_in_place_with_precomputation, rep3_permutation_in_place_with_precomputation_packed, rep3_permutation_additive_in_place_with_precomputation"]}
{"id": "C73", "title": "Poseidon2 on Shamir shares", "statement": "The same for Shamir sharings: the permutation (directly, with precomputed powers, or packed) gives a sharing of the permuted state, a pool for n permutations serves exactly n.", "quantifier": "any number of parties and threshold, every field, parameter set with degree five, state, number of packed states, history of uses of the pool, all randomness and schedules", "why_tests_cant": "All numbers of parties, states, pools and histories.", "anchors": ["mpc-core/src/gadgets/poseidon2/shamir.rs"]}
{"id": "C74", "title": "Merkle trees", "statement": "For every arity and every depth of at least one, the tree function computes in place the root of the full tree over the leaves, with Poseidon2 as sponge or in compression mode; on replicated or Shamir sharings of the leaves it gives a sharing of that root. A number of leaves that is not a power of the arity, and an arity that does not fit the state, are rejected, on shares by all parties. (A single leaf: panics unless compression fills the state.)", "quantifier": "every field, parameter set, arity, depth, all leaves, all numbers of parties and thresholds, all randomness and schedules", "why_tests_cant": "All depths and arities; the layers overwrite each other in one vector, so an index error shows only for some shapes.", "anchors": ["mpc-core/src/gadgets/merkle_tree/plain.rs: merkle_tree_sponge, merkle_tree_compression", "mpc-core/src/gadgets/merkle_tree/rep3.rs", "mpc-core/src/gadgets/merkle_tree/shamir.rs"]}
{"id": "C75", "title": "Merkle witnesses", "statement": "For every leaf index the tree function with witness gives the same root and a path whose positions are the digits of the index, and verification accepts it. Verification accepts exactly the non-empty paths of constant arity that lead to the root. An accepted path of the depth and arity of the tree shows that the value is the leaf at the index of the path, unless it yields a collision of the hash; the depth itself is not checked, a shorter path can accept an inner node.", "quantifier": "every ring, parameter set, arity, depth, all leaves, indices, values and paths, also dishonest ones", "why_tests_cant": "All adversarial paths.", "anchors": ["mpc-core/src/gadgets/merkle_tree/plain.rs: merkle_tree_sponge_with_witness, merkle_tree_compression_with_witness, verify_merkle_path_sponge, verify_merkle_path_compression"]}
{"id": "C76", "title": "Roots of unity and witness maps of Groth16", "statement": "For every prime field the search for a quadratic non-residue ends and the table it yields holds a primitive root of unity for every power of two up to the two-adicity, each the square of the next. On replicated or Shamir sharings of the witness the Circom witness map gives sharings of the values of A*B-C on the coset; for a satisfying assignment the libsnark witness map gives sharings of the coefficients of the quotient by the vanishing polynomial.", "quantifier": "every prime field with correct constants, every well-formed constraint system that is not too large, all assignments, any number of parties and threshold, all randomness and schedules", "why_tests_cant": "All constraint systems and domain sizes; an error in the transforms shows as an invalid proof for some sizes only.", "anchors": ["co-circom/co-groth16/src/groth16.rs: roots_of_unity, groth16_roots_of_unity", "co-circom/co-groth16/src/groth16/reduction.rs: CircomReduction, LibSnarkReduction", "co-circom/co-groth16/src/mpc/rep3.rs", "co-circom/co-groth16/src/mpc/shamir.rs", "mpc-core/src/protocols/rep3/arithmetic.rs: local_mul_vec"]}
{"id": "C77", "title": "The collaborative Groth16 prover computes the Groth16 proof", "statement": "Every party of the collaborative prover (replicated shares, Shamir shares, replicated shares translated to Shamir shares, or in the clear) gets the same proof, and it is the Groth16 proof for the shared assignment and the random values that the parties' generators determine. A wrong number of public inputs or witness values and a constraint system that is too large for the field are errors at all parties.", "quantifier": "every prime field, groups, proving key with enough points, constraint system, assignment, both witness maps, any number of parties and threshold, all randomness and all schedules of the two parallel networks", "why_tests_cant": "All keys, circuits and schedules of two networks.", "anchors": ["co-circom/co-groth16/src/groth16.rs: prove, prove_inner, create_proof_with_assignment, calculate_coeff, prove_with_shamir_bridge", "co-circom/co-groth16/src/mpc/"]}
{"id": "C78", "title": "Completeness of the collaborative Groth16 prover", "statement": "With a key from a trusted setup for the constraint system and shares of a satisfying witness, all parties get the same proof and the verifier accepts it: for keys of snarkjs with the Circom witness map (domains smaller than the largest of the field), for keys of libsnark and arkworks with the other one.", "quantifier": "every prime field, bilinear pairing, constraint system, satisfying assignment, all secrets of the setup with non-zero gamma and delta, any number of parties and threshold, all randomness and schedules", "why_tests_cant": "All circuits, witnesses, keys and random values.", "anchors": ["co-circom/co-groth16/src/groth16.rs: Rep3CoGroth16::prove, ShamirCoGroth16::prove, prove_with_shamir_bridge", "co-circom/co-groth16/src/verifier.rs: verify"]}
{"id": "C79", "title": "Proofs reveal nothing about the witness", "statement": "For two witnesses for the same public inputs there is a permutation of the random values that turns the proofs for one into the proofs for the other, so both have the same distribution of proofs.", "quantifier": "every prime field, constraint system, key from a trusted setup, both witness maps, all pairs of satisfying witnesses", "why_tests_cant": "A statement about distributions.", "anchors": ["co-circom/co-groth16/src/groth16.rs: create_proof_with_assignment"]}
{"id": "C80", "title": "The clear-text circom VM computes circom's operators", "statement": "Comparisons are those of the representatives in [-(p-1)/2, (p-1)/2]; integer quotient and remainder satisfy a = q*b + r with r < b and exist exactly for b != 0; the square root squares to its argument, is not negative, and exists exactly for squares; the bit decomposition consists of the binary digits.", "quantifier": "every odd prime modulus and all operands", "why_tests_cant": "The comparisons are implemented by shifting the field by (p+1)/2; tests compare a few pairs.", "anchors": ["co-circom/circom-mpc-vm/src/mpc/plain.rs: CircomPlainVmWitnessExtension, val, is_negative, to_usize"]}
{"id": "C81", "title": "Binary operations of the collaborative circom VM agree with the clear-text VM", "statement": "For operands of any mix of public and secret the three parties obtain a public value or a replicated sharing of the result that the clear-text VM computes on the values, with both correlated generators still in step; division by a secret fails for all parties together, and only if the common random mask is zero.", "quantifier": "every odd prime, width of the binary shares, conversion protocol, operator, operands, sharing, correlated state of the generators and schedule", "why_tests_cant": "Needs all sharings of all operands, all message schedules of two networks used by two threads per party, and all fields.", "anchors": ["co-circom/circom-mpc-vm/src/mpc/rep3.rs: CircomRep3VmWitnessExtension"]}
{"id": "C82", "title": "Other operations of the collaborative circom VM agree with the clear-text VM", "statement": "Negation, logical negation, the multiplexer, square roots, zero tests, opening, promotion to shares, logs and the accelerated bit decomposition and bit addition return a sharing of (or the same public value as) the result of the clear-text VM.", "quantifier": "every odd prime, conversion protocol, operand, sharing, state of the generators and schedule", "why_tests_cant": "As for C81.", "anchors": ["co-circom/circom-mpc-vm/src/mpc/rep3.rs: CircomRep3VmWitnessExtension"]}
{"id": "C83", "title": "Collaborative witness extension of programs without secret branches", "statement": "For a compiled circom program that does not branch on secret values (and divides by public values only), the three parties obtain the public outputs of the clear-text VM on the same inputs and replicated shares of the rest of its witness.", "quantifier": "every bytecode program (templates, functions, loops, sub-components, accelerators), inputs by name or position with any mix of public and secret, every sharing, odd prime field, state of the generators and schedule", "why_tests_cant": "All programs, inputs, sharings and schedules.", "anchors": ["co-circom/circom-mpc-vm/src/mpc_vm.rs: WitnessExtension::run, run_with_flat, Component::run", "co-circom/circom-mpc-vm/src/mpc/rep3.rs", "co-circom/circom-mpc-vm/src/mpc/plain.rs"]}
{"id": "C84", "title": "Collaborative witness extension of every program is oblivious evaluation", "statement": "For every compiled circom program the three parties obtain the public values, and replicated shares of the witness, of the run on marked clear values, in which both branches of a secret condition are executed and assignments in them select between old and new value. With a division by a secret or a root of a secret, the only alternative is that all parties fail.", "quantifier": "every bytecode program, inputs, sharing, odd prime field, state of the generators and schedule", "why_tests_cant": "All programs, inputs, sharings and schedules.", "anchors": ["co-circom/circom-mpc-vm/src/mpc_vm.rs: WitnessExtension::run, Component::run, IfCtxStack", "co-circom/circom-mpc-vm/src/accelerator.rs", "co-circom/circom-mpc-vm/src/stack.rs"]}
{"id": "C85", "title": "Compiled circom programs may branch on secrets", "statement": "For every program in the image of the compiler (without calls of user functions), if the run on marked clear values succeeds and, inside branches on secrets, creates no component and skips no else-less branch with a public condition, then the public values and the witness the three parties obtain (in the clear and as shares) are those of the plain VM, which jumps instead of running both branches.", "quantifier": "every compiled program (expressions, stores, component creation and inputs, nested branches and loops), inputs, sharing, odd prime field, state of the generators and schedule", "why_tests_cant": "All programs with arbitrarily nested branches and loops, all inputs and schedules; a test compares one program.", "anchors": ["co-circom/circom-mpc-vm/src/mpc_vm.rs: Component::run, IfCtxStack, MpcOpCode::Branch, EndTruthyBranch, EndFalsyBranch, StoreVars, StoreSignals", "co-circom/circom-mpc-compiler/src/lib.rs: handle_branch_bucket, handle_loop_bucket, handle_store_bucket"]}
{"id": "C86", "title": "The compiler's code computes the meaning of the statements", "statement": "The bytecode the compiler emits for a template makes the plain VM compute exactly what the statements mean: expressions, assignments to variables and signals, vector comparisons, branches, loops, assertions, creation of components and their execution once all inputs have arrived, input signals by name, and the witness from the signals. A run succeeds with a witness if and only if the statements have an execution with this witness.", "quantifier": "every compiled program without calls of user functions and without accelerators, all inputs, every odd prime field, any number of loop iterations and any nesting of components", "why_tests_cant": "All programs and inputs, unbounded loops, and the converse direction (nothing else is computed) cannot be tested.", "anchors": ["co-circom/circom-mpc-compiler/src/lib.rs: handle_store_bucket, handle_compute_bucket, handle_branch_bucket, handle_loop_bucket, handle_create_cmp_bucket", "co-circom/circom-mpc-vm/src/mpc_vm.rs: Component::run, WitnessExtension::run, set_input_signals, post_processing"]}
{"id": "C87", "title": "Accelerated components compute what the circomlib templates compute", "statement": "With its accelerators the VM does not run the code of IsZero, Num2Bits and AddBits, but the signals get the values which the templates assign, in the places of outputs, inputs and intermediate signals, and nothing else changes. The values satisfy the constraints of the templates: always for IsZero, exactly for inputs of the given number of bits for Num2Bits, for bit inputs for AddBits. The three parties get shares of the same signals, also for secret inputs.", "quantifier": "every odd prime field, number of bits, position of the component, values of the signals, every sharing, state of the generators and schedule", "why_tests_cant": "All field elements, widths and layouts of signals.", "anchors": ["co-circom/circom-mpc-vm/src/accelerator.rs: register_iszero, register_num2bits, register_addbits, run_cmp_accelerator", "co-circom/circom-mpc-vm/src/mpc_vm.rs: Component::run", "co-circom/co-circom/examples/lib/comparators.circom: IsZero", "co-circom/co-circom/examples/lib/bitify.circom: Num2Bits"]}
{"id": "C88", "title": "Split and merged inputs are sharings of what the JSON files say", "statement": "A JSON input is accepted if and only if each entry is a boolean, a string with a decimal or hexadecimal number (perhaps negative), or a nested array of these and \"?\". Splitting gives the public entries in the clear and sharings (Rep3 or Shamir) of the others to the parties, under the names of the signals, and nothing else. Merging the parts of several users succeeds at all parties or fails at all: it succeeds if and only if signals which two users give are public and have the same value, and then the parties hold the union.", "quantifier": "all JSON values and nestings, numbers of users, names, field elements, random values, thresholds and numbers of parties", "why_tests_cant": "Unboundedly nested inputs, all combinations of users with overlapping names, all random values.", "anchors": ["co-circom/co-circom-types/src/lib.rs: split_input, split_input_shamir, merge_input_shares, parse_field, parse_array, parse_boolean"]}
{"id": "C89", "title": "From the JSON files of several users to a shared witness", "statement": "If the inputs of the users agree, the parties merge their parts, and the collaborative witness extension gives them the public values and shares of the witness which the circuit has on the union of the inputs. For compiled circuits this is the witness by the meaning of the statements. The opened values are the constant, the outputs and as many inputs as the merged map has public entries.", "quantifier": "all users, JSON inputs, programs, odd prime fields, random values, states of the generators and schedules", "why_tests_cant": "The statement composes three phases for all inputs, programs and schedules.", "anchors": ["co-circom/co-circom/src/lib.rs: generate_witness_rep3", "co-circom/co-circom-types/src/lib.rs: split_input, merge_input_shares", "co-circom/circom-mpc-vm/src/mpc_vm.rs: run, set_input_signals, post_processing"]}
{"id": "C90", "title": "All forms of a shared witness hold the same witness", "statement": "Dealing a witness gives all parties the public values and a sharing of the rest, whichever of the four compressions is chosen. Expanding it gives the parties replicated shares, translating it gives them Shamir shares of degree one, and converting it gives additive shares, always of the same values. Too few values are a panic. Unbatching transposes a batch whose rows have one length and panics on all others. The inputs for the verifier are the public values without the leading constant.", "quantifier": "all witnesses, numbers of public values, compressions, seeds, random values, batches, states and schedules", "why_tests_cant": "The forms must agree for every witness and every seed, after interaction in every schedule.", "anchors": ["co-circom/co-circom-types/src/lib.rs: share_rep3, share_shamir, unbatch, public_inputs_for_verify, From<CompressedRep3SharedWitness> for SharedWitness", "co-circom/co-circom/src/lib.rs: split_witness_rep3, uncompress_shared_witness, split_witness_shamir, translate_witness"]}
{"id": "C91", "title": "From inputs or a witness to an accepted Groth16 proof", "statement": "If a witness satisfies the constraints, it can be dealt in any form; the parties expand or translate it and prove, and all get the same proof, which the verifier accepts for the public values. The same holds if users split JSON inputs and the parties merge them, extend the witness and prove.", "quantifier": "all circuits, keys, inputs, witnesses, compressions, random values, states of the generators and schedules", "why_tests_cant": "Completeness of the whole chain ranges over all circuits, inputs, randomness and schedules.", "anchors": ["co-circom/co-circom/src/lib.rs: split_witness_rep3, uncompress_shared_witness, translate_witness, generate_witness_rep3", "co-circom/co-groth16/src/groth16.rs: prove_inner", "co-circom/co-circom-types/src/lib.rs: split_input, merge_input_shares"]}
{"id": "C92", "title": "The solver for Noir programs finds the solution", "statement": "What the plain solver for the opcodes of a Noir program returns (witness map and output) is part of every assignment that has the given inputs and satisfies the opcodes: constraints, memory blocks, range checks, AND and XOR. It finds exactly the witnesses which the text of the program determines. If a satisfying assignment exists and each opcode determines what it is solved for, the solver succeeds.", "quantifier": "every program of these opcodes, every prime field, every set of inputs", "why_tests_cant": "All programs and inputs; the first part is about all assignments.", "anchors": ["co-noir/co-acvm/src/solver.rs: solve_with_output, open_results", "co-noir/co-acvm/src/solver/assert_zero_solver.rs: solve_assert_zero, simplify_expression", "co-noir/co-acvm/src/solver/memory_solver.rs: solve_memory_init_block, solve_memory_op", "co-noir/co-acvm/src/solver/blackbox_solver.rs: solve_range_opcode, solve_logic_opcode"]}
{"id": "C93", "title": "Solving a Noir program on shares", "statement": "If the plain solver succeeds on some inputs, the three parties succeed on public values and replicated shares of these inputs; they get public values and shares of the plain result and all the same, plain output. Only if a constraint multiplies an unknown witness can they fail, and then all do.", "quantifier": "every program with tables of at least three entries, every mix of public and secret inputs, sharing, odd prime field, state of the generators and schedule", "why_tests_cant": "All programs, inputs, sharings and schedules.", "anchors": ["co-noir/co-acvm/src/solver.rs", "co-noir/co-acvm/src/mpc/rep3.rs", "co-noir/co-acvm/src/mpc/plain.rs"]}
{"id": "C94", "title": "An accepted Noir program is satisfied", "statement": "If the solver accepts, the witness map satisfies the opcodes of the program. (False of the code: a constraint whose witnesses are all known is not checked, and a memory read replaces a known witness.)", "quantifier": "every program, prime field and inputs", "why_tests_cant": "All programs and inputs.", "anchors": ["co-noir/co-acvm/src/solver/assert_zero_solver.rs: solve_assert_zero", "co-noir/co-acvm/src/solver/memory_solver.rs: solve_memory_op"]}
{"id": "C95", "title": "Solving a Noir program on Shamir shares", "statement": "If the plain solver succeeds, the parties of the Shamir protocol get public values and shares of its result and all the same output. (False of the code: in the product of a public and a shared witness the coefficient is dropped.)", "quantifier": "every number of parties and threshold, program, mix of public and secret inputs, prime field, state and schedule", "why_tests_cant": "All programs, inputs, sharings and schedules.", "anchors": ["co-noir/co-acvm/src/mpc/shamir.rs: solve_mul_term, solve_linear_term, solve_equation", "co-noir/co-acvm/src/solver.rs"]}
{"id": "C96", "title": "PLONK: proofs of true statements are accepted", "statement": "The algorithm of the PLONK prover, run on values in the clear, returns a proof unless a challenge hits an exceptional value, and every proof that it returns for an assignment that satisfies the circuit is accepted by the verifier with the same public inputs.", "quantifier": "every circuit with at least one public input and at least eight gates, valid proving key, satisfying assignment, choice of the eleven blinding factors, hash function, pairing and prime field", "why_tests_cant": "All circuits, keys, witnesses and blinding factors; a test has one circuit and one key.", "anchors": ["co-circom/co-plonk/src/lib.rs: CoPlonk::prove_inner", "co-circom/co-plonk/src/round1.rs", "co-circom/co-plonk/src/round2.rs", "co-circom/co-plonk/src/round3.rs", "co-circom/co-plonk/src/round4.rs", "co-circom/co-plonk/src/round5.rs", "co-circom/co-plonk/src/plonk.rs: Plonk::verify"]}
{"id": "C97", "title": "PLONK in the clear returns accepted proofs", "statement": "Run without MPC on a satisfying assignment, the PLONK prover returns a proof that the verifier accepts, provided none of the random values is zero and no challenge hits an exceptional value. (If the first value that masks a product is zero, it panics.)", "quantifier": "every circuit with at least one public input and at least eight gates, valid proving key, satisfying assignment, sequence of nonzero random values, hash function, pairing and prime field", "why_tests_cant": "All circuits, keys, witnesses and random values.", "anchors": ["co-circom/co-plonk/src/mpc/plain.rs", "co-circom/co-plonk/src/lib.rs: CoPlonk::prove_inner", "co-circom/co-plonk/src/plonk.rs: Plonk::verify"]}
{"id": "C98", "title": "Collaborative PLONK with Rep3: all parties return one accepted proof", "statement": "On replicated shares of a satisfying witness all three parties return the same proof and the verifier accepts it, in every interleaving of the eight networks, unless a challenge of the transcript hits an exceptional value. Only if one of the random shared values that mask the products of round 2 is zero can they fail, and then all return an error and none panics or hangs.", "quantifier": "every circuit with at least one public input and at least eight gates, valid proving key, satisfying assignment, sharing of the witness, correlated state of the generators, hash function, pairing, number of threads in polynomial evaluation and schedule of the 24 actors", "why_tests_cant": "All circuits, keys, sharings, random values and schedules.", "anchors": ["co-circom/co-plonk/src/mpc/rep3.rs", "co-circom/co-plonk/src/lib.rs: Rep3CoPlonk::prove", "co-circom/co-plonk/src/round1.rs", "co-circom/co-plonk/src/round2.rs", "co-circom/co-plonk/src/round3.rs", "co-circom/co-plonk/src/round4.rs", "co-circom/co-plonk/src/round5.rs"]}
{"id": "C99", "title": "Collaborative PLONK with Shamir sharing: all parties return one accepted proof", "statement": "On Shamir shares of a satisfying witness, and with the number of preprocessed pairs the prover asks for, all parties return the same proof and the verifier accepts it, unless a challenge of the transcript hits an exceptional value; the preprocessed pairs never run out in a fork. Only if one of the pairs is a sharing of zero can they fail, and then all return an error.", "quantifier": "every number of parties and threshold, circuit with at least one public input and at least eight gates, valid proving key, satisfying assignment, sharing, preprocessing, hash function, pairing and schedule", "why_tests_cant": "All circuits, keys, sharings, numbers of parties and schedules; the number of pairs must suffice for every circuit.", "anchors": ["co-circom/co-plonk/src/mpc/shamir.rs", "co-circom/co-plonk/src/lib.rs: ShamirCoPlonk::prove", "mpc-core/src/protocols/shamir.rs: ShamirState, fork"]}
{"id": "C100", "title": "PLONK: the verifier only accepts true statements", "statement": "If the PLONK verifier accepts a proof whose points are commitments to polynomials that the prover knows, then the number of public inputs is right, and the wire values that the prover committed to first satisfy every gate and every copy constraint of the circuit with these public inputs, unless one of the challenges falls into a small set that is determined by what was sent before it.", "quantifier": "every circuit and verification key made for it, public inputs, hash function, pairing with e(g1, g2) not zero, secret of the setup and algebraic prover (any polynomials of bounded degree, any claimed evaluations)", "why_tests_cant": "A test can show that some wrong proofs are rejected, not that all are.", "anchors": ["co-circom/co-plonk/src/plonk.rs: Plonk::verify, VerifierChallenges::new, calculate_r0_d, calculate_e, calculate_f, valid_pairing", "co-circom/co-plonk/src/lib.rs: calculate_lagrange_evaluations, calculate_pi"]}
{"id": "C101", "title": "UltraHonk: extending and evaluating univariates", "statement": "A univariate in evaluation form, extended to more points, holds the values of the polynomial it stands for at these points, and its evaluation at a point is the value of that polynomial there. At the points 1, ..., n the evaluation panics.", "quantifier": "every length and target length, polynomial of fitting degree, point, and field in which the nodes are different", "why_tests_cant": "All polynomials, lengths and points; there are four different algorithms for different lengths.", "anchors": ["co-noir/ultrahonk/src/decider/univariate.rs: extend_from, evaluate", "co-noir/co-noir-common/src/barycentric.rs"]}
{"id": "C102", "title": "UltraHonk: prover and verifier compute the same gate equations", "statement": "The two implementations of each of the 28 subrelations, on univariates in the prover and on values in the verifier, compute the gate equation of the specification times the scaling factor. Between two rows the equation is a polynomial of degree less than the number of evaluations that the prover keeps.", "quantifier": "every row or pair of rows, all parameters, scaling factors and fields", "why_tests_cant": "All values of 41 columns; the degree bound is about all pairs of rows.", "anchors": ["co-noir/ultrahonk/src/decider/relations/*.rs: accumulate, verify_accumulate"]}
{"id": "C103", "title": "UltraHonk: the sumcheck proof of a satisfied circuit is accepted", "statement": "The sumcheck prover never fails, claims the values of the multilinear extensions of the columns at the challenges, and for a satisfied circuit the verifier accepts what it sends, provided that no round challenge is one of 1, ..., 7 and that the prover loses nothing by leaving out permutations and lookups on edges that look inactive. (Without the last condition an honest proof can be rejected.)", "quantifier": "every circuit size of at least four rows, number of virtual rounds, table, transcript function and batching challenges", "why_tests_cant": "All circuits, witnesses and challenges.", "anchors": ["co-noir/ultrahonk/src/decider/sumcheck/sumcheck_prover.rs: sumcheck_prove", "co-noir/ultrahonk/src/decider/sumcheck/sumcheck_round_prover.rs", "co-noir/ultrahonk/src/decider/sumcheck/sumcheck_verifier.rs: sumcheck_verify", "co-noir/ultrahonk/src/decider/types.rs: GateSeparatorPolynomial"]}
{"id": "C104", "title": "UltraHonk: the sumcheck verifier only accepts satisfied circuits", "statement": "If the claimed evaluations are those of a table and the sumcheck verifier accepts, then every row of the table satisfies every gate and the lookups balance, unless one of the challenges falls into a small set that is determined by what was sent before it.", "quantifier": "every table, circuit size, number of rounds, prover and transcript function", "why_tests_cant": "A test can show that some wrong proofs are rejected, not that all are.", "anchors": ["co-noir/ultrahonk/src/decider/sumcheck/sumcheck_verifier.rs: sumcheck_verify", "co-noir/ultrahonk/src/decider/sumcheck/sumcheck_round_verifier.rs", "co-noir/ultrahonk/src/oink/oink_prover.rs: generate_alphas_round", "co-noir/ultrahonk/src/ultra_prover.rs: generate_gate_challenges"]}
{"id": "C105", "title": "UltraHonk: the permutation column of a correct assignment passes", "statement": "The proving key carries the values of the variables in its wires and public inputs. The prover of the permutation argument never panics on such a key, and if the wires satisfy the copy constraints of the circuit (equal variables have equal values, the public inputs are the values of the public variables, and the tagged lists are permutations of each other), the column it computes satisfies both permutation relations in every row, for all challenges that make no denominator zero.", "quantifier": "every circuit (any number of blocks, rows, variables, copy classes, tags and public inputs), wires and challenges", "why_tests_cant": "All circuits, assignments and challenges.", "anchors": ["co-noir/co-builder/src/keys/plain_proving_key.rs: compute_permutation_argument_polynomials", "co-noir/co-builder/src/keys/plain_proving_key.rs: create_prover_instance", "co-noir/ultrahonk/src/oink/oink_prover.rs: compute_grand_product", "co-noir/ultrahonk/src/oink/oink_prover.rs: compute_public_input_delta"]}
{"id": "C106", "title": "UltraHonk: wires that pass the permutation argument satisfy the copy constraints", "statement": "For every choice of the wires, apart from few values of the two challenges, no permutation column satisfies the permutation relations unless the wires satisfy the copy constraints of the circuit with exactly the public inputs that the verifier used.", "quantifier": "every circuit, wires, public inputs and permutation column", "why_tests_cant": "A test can only try some wrong assignments.", "anchors": ["co-noir/co-builder/src/keys/plain_proving_key.rs: compute_permutation_argument_polynomials", "co-noir/ultrahonk/src/decider/relations/permutation_relation.rs", "co-noir/ultrahonk/src/oink/oink_verifier.rs"]}
{"id": "C107", "title": "UltraHonk: the lookup columns of correct lookups pass", "statement": "If the rows that look something up look up, in some order, what the lookup gates of the tables read, then the columns that the prover computes (the tables, the counts and tags of the reads, the inverses) satisfy the three lookup relations, for all challenges that make no denominator zero.", "quantifier": "every list of lookup tables (with and without index maps and twin keys), lookup gates, table of columns and challenges", "why_tests_cant": "All tables, reads and challenges.", "anchors": ["co-noir/co-builder/src/keys/plain_proving_key.rs: construct_lookup_table_polynomials", "co-noir/co-builder/src/keys/plain_proving_key.rs: construct_lookup_read_counts", "co-noir/ultrahonk/src/oink/oink_prover.rs: compute_logderivative_inverses"]}
{"id": "C108", "title": "UltraHonk: everything that is looked up is in the tables", "statement": "For every choice of wires, tables, counts and tags, apart from few values of the two challenges, no column of inverses satisfies the lookup relations unless each row that looks something up looks up an entry of the tables.", "quantifier": "every table of columns, size, counts, tags and inverses", "why_tests_cant": "A test can only try some wrong lookups.", "anchors": ["co-noir/ultrahonk/src/decider/relations/logderiv_lookup_relation.rs", "co-noir/ultrahonk/src/oink/oink_prover.rs: compute_logderivative_inverses"]}
{"id": "C109", "title": "UltraHonk: accepted means executed", "statement": "Soundness and completeness of the interactive proof as a whole: if the columns committed before the permutation challenges do not describe an execution of the circuit (gates, copy constraints, public inputs, lookups), then the sumcheck verifier accepts the claimed evaluations of whatever columns are added later only if a challenge falls into a small set fixed before it is drawn; if they do describe an execution, the columns the prover adds satisfy all relations.", "quantifier": "every circuit, public inputs, columns, prover messages and transcript function", "why_tests_cant": "A test can show that some wrong proofs are rejected, not that all are.", "anchors": ["co-noir/ultrahonk/src/oink/oink_prover.rs", "co-noir/ultrahonk/src/decider/sumcheck/sumcheck_verifier.rs: sumcheck_verify", "co-noir/co-builder/src/keys/plain_proving_key.rs"]}
{"id": "C110", "title": "Collaborative UltraHonk: memory records on shares", "statement": "Before the second commitment the prover fills the memory gates' cells of the fourth wire with records, combinations of the row's first three wires and a read/write flag. In the clear, and on Rep3 and Shamir shares, the parties obtain (shares of) exactly the wire with these records, all other cells unchanged, also where the flag itself is shared.", "quantifier": "every wire, list of read, write and shared records, challenge, and sharing", "why_tests_cant": "All wires, records and randomness.", "anchors": ["co-noir/ultrahonk/src/oink/oink_prover.rs: compute_w4", "co-noir/co-ultrahonk/src/co_oink/co_oink_prover.rs: compute_w4"]}
{"id": "C111", "title": "Collaborative UltraHonk: the lookup inverses on shares", "statement": "From shares of the wires and the read tags the parties compute shares of exactly the column of inverses that the prover in the clear computes, unless one of the random masks is zero; what happens then is stated too.", "quantifier": "every table of columns, size, challenges, sharing and randomness, for both protocols", "why_tests_cant": "All columns, sharings and random values.", "anchors": ["co-noir/co-ultrahonk/src/co_oink/co_oink_prover.rs: compute_logderivative_inverses", "co-noir/co-noir-common/src/mpc/rep3.rs: inv_many_in_place_leaking_zeros", "co-noir/co-noir-common/src/mpc/shamir.rs"]}
{"id": "C112", "title": "Collaborative UltraHonk: the permutation column on shares", "statement": "From shares of the wires the parties compute shares of exactly the permutation column that the prover in the clear computes, or all return the same error, and then one of their random values was zero. A zero factor in a denominator, for which the prover in the clear still returns a column, makes all parties return an error.", "quantifier": "every circuit, wires, challenges, sharing and randomness, for both protocols", "why_tests_cant": "All circuits, sharings and random values.", "anchors": ["co-noir/co-ultrahonk/src/co_oink/co_oink_prover.rs: compute_grand_product", "co-noir/co-noir-common/src/lib.rs: array_prod_mul", "co-noir/co-noir-common/src/mpc/rep3.rs: inv_many_in_place", "co-noir/ultrahonk/src/oink/oink_prover.rs: compute_grand_product"]}
{"id": "C113", "title": "UltraHonk circuit of a Noir program is sound", "statement": "From a program of arithmetic constraints and range checks the builder makes a circuit. Any execution of that circuit - columns that satisfy its gates, copy constraints and sorted lists, whatever witness the circuit was made with - yields an assignment that satisfies every constraint and range check of the program, and the public inputs of the execution are the values of the program's public witnesses followed by the eight zeros of the default pairing point. So if no assignment satisfies the program with some public inputs, the verifier of the interactive proof rejects unless a challenge falls into a small set. An expression whose terms cancel makes the builder panic.", "quantifier": "every program of AssertZero and RANGE opcodes, every number of bits, every witness, public inputs and columns, over every prime field larger than the circuit", "why_tests_cant": "A missing constraint shows only with a witness that nobody would compute honestly; the honest witness passes all tests.", "anchors": ["co-noir/co-builder/src/ultra_builder.rs: create_circuit, create_big_quad_constraint, create_dyadic_range_constraint, create_limbed_range_constraint, create_new_range_constraint, process_range_list, create_sort_constraint_with_edges", "co-noir/co-builder/src/acir_format.rs: split_into_mul_quad_gates, is_single_arithmetic_gate, assert_zero_to_quad_constraints", "co-noir/co-builder/src/keys/plain_proving_key.rs: populate_wires_and_selectors_and_compute_copy_cycles"]}
{"id": "C114", "title": "UltraHonk circuit and verification key do not depend on the witness", "statement": "The circuit that is made without a witness, for the verification key, and the circuits that provers make with any witness of the right length are the same up to the values of the variables: the same rows, selectors, copy constraints, tags and public inputs; or circuit creation fails for all of them with the same error. The keys made from them then agree in everything but the wires and the values of the public inputs, so one verification key fits all proofs. A witness of the wrong length is rejected.", "quantifier": "every program of AssertZero and RANGE opcodes and every two witnesses", "why_tests_cant": "A data-dependent branch in the builder shows only for the witnesses that take it.", "anchors": ["co-noir/co-builder/src/ultra_builder.rs: create_circuit, init, build_constraints, finalize_circuit", "co-noir/co-builder/src/keys/plain_proving_key.rs: create_prover_instance"]}
{"id": "C115", "title": "A witness that satisfies the program satisfies the UltraHonk circuit", "statement": "Let a program of AssertZero and RANGE opcodes be translated into constraints, and let a witness satisfy it. Then circuit creation neither panics nor fails for this witness, and the wires that the prover fills in describe an execution of the circuit: all rows of the arithmetic and the range blocks hold, with sorted lists, limbs, padding and filler gates; equal variables have equal values; each sorted list has the values it sorts; and the public inputs are the values of the public witnesses and eight zeros.", "quantifier": "every program of AssertZero and RANGE opcodes, every witness that satisfies it and every prime field of 14 to 256 bits", "why_tests_cant": "A gate that is too strict, or an assertion that fails, shows only for the witnesses that meet it, such as boundary values of a range or a certain number of limbs.", "anchors": ["co-noir/co-builder/src/ultra_builder.rs: create_circuit, create_new_range_constraint, decompose_into_default_range, process_range_list", "co-noir/co-builder/src/acir_format.rs: circuit_serde_to_acir_format"]}
{"id": "C116", "title": "The collaborative sumcheck produces the honest proof", "statement": "Let the parties of a collaborative UltraHonk prover without zero knowledge hold the public columns of a table and shares of the witness columns. Then the sumcheck never fails, and all parties end with the same proof: one univariate per round and the values of the multilinear extensions of the columns at the challenges. If the table satisfies the circuit and no challenge is one of 1 to 7, the verifier accepts it. It is the proof of the plain prover whenever that prover loses nothing by leaving out permutations and lookups; otherwise the two can differ, and the plain one can be rejected while the collaborative one is accepted.", "quantifier": "every table of at least four rows, every sharing of it (Rep3, and Shamir with any number of parties), every choice of challenges, all random values of the parties and every schedule of messages", "why_tests_cant": "The sums of 27 subrelations over all edges of all rounds are computed on shares with several multiplication rounds and a lazy reduction; a wrong factor shows only on tables where the term is not zero, and a wrong sharing only for some random values.", "anchors": ["co-noir/co-ultrahonk/src/co_decider/co_sumcheck/co_sumcheck_prover.rs: sumcheck_prove, partially_evaluate, extract_claimed_evaluations", "co-noir/co-ultrahonk/src/co_decider/co_sumcheck/co_sumcheck_round.rs: compute_univariate, compute_virtual_contribution, accumulate_relation_univariates_batch", "co-noir/co-ultrahonk/src/co_decider/relations/: accumulate, fold_accumulator", "co-noir/co-ultrahonk/src/co_decider/univariates.rs: extend_from"]}
{"id": "C117", "title": "The opening proof of UltraHonk is accepted", "statement": "Let the columns of a table be committed with a reference string of powers, let the columns that are also opened shifted begin with zero, and let the shifted columns hold the values of the next row. Then the opening proof that the plain prover without zero knowledge makes (batching, folding, two batched quotients) is accepted by the verifier for the values of the multilinear extensions of all columns and shifted columns at the challenges of the sumcheck, unless a challenge is one of the few values where the verifier divides by zero. The prover itself fails only if the folding challenge is zero. So after the sumcheck the verifier accepts the values that the sumcheck claims.", "quantifier": "every table of at least four rows and a power of two, every number of variables from the logarithm of the rows on, every long enough reference string with any secret, every pairing and every choice of challenges, depending on anything sent before", "why_tests_cant": "The prover divides polynomials and the verifier recombines commitments and values with about a hundred scalars; a wrong power, sign or index can cancel for particular sizes, for columns that are zero, or when there are no variables beyond the size of the circuit.", "anchors": ["co-noir/ultrahonk/src/decider/shplemini/shplemini_prover.rs: shplemini_prove, compute_batched_polys, compute_fold_polynomials, construct_univariate_opening_claims, compute_batched_quotient, compute_partially_evaluated_batched_quotient", "co-noir/ultrahonk/src/decider/shplemini/shplemini_verifier.rs: compute_batch_opening_claim, compute_fold_pos_evaluations, batch_gemini_claims_received_from_prover", "co-noir/ultrahonk/src/decider/decider_verifier.rs: pairing_check", "co-noir/co-noir-common/src/lib.rs: compute_opening_proof"]}
{"id": "C118", "title": "The collaborative UltraHonk prover makes an accepted proof from the sumcheck on", "statement": "Let the parties of a collaborative UltraHonk prover without zero knowledge hold the public columns of a table and shares of the witness columns. If the plain opening prover makes a proof, all parties make the same one. If the parties run the sumcheck and then the opening at its challenges, and the folding challenge is never zero, they never fail and all end with the same two parts: the sumcheck of an honest prover, and an opening of the values claimed there that the verifier accepts, unless a challenge is one of the few where it divides by zero.", "quantifier": "every table of at least four rows and a power of two with shifted columns, every sharing of it (Rep3, and Shamir with any number of parties), every long enough reference string, every pairing, every choice of challenges, every split of polynomial evaluations among threads, all random values of the parties and every schedule of messages", "why_tests_cant": "The parties only ever see shares, so a wrong local step (a public value added by every party, a size that is not rounded the same way, a value that is opened too early) shows as a rejected proof for some tables and sizes only.", "anchors": ["co-noir/co-ultrahonk/src/co_decider/co_decider_prover.rs: prove, execute_pcs_rounds", "co-noir/co-ultrahonk/src/co_decider/co_shplemini/co_shplemini_prover.rs: shplemini_prove, gemini_prove, shplonk_prove, compute_batched_quotient", "co-noir/co-noir-common/src/lib.rs: compute_co_opening_proof, CoUtils::commit", "co-noir/co-noir-common/src/polynomials/shared_polynomial.rs: add_scaled_slice, factor_roots"]}
{"id": "C119", "title": "A prover instance and a key without witness describe the same circuit, and a satisfying witness fills it", "statement": "Let the prover of UltraHonk build its instance (with public inputs, constants, range lists, the dummy lookup and the filler gates of all other blocks) from a program and a witness. Then building it without a witness also succeeds and gives the same size, the same number and position of public inputs and the same selectors, tables, permutations and Lagrange columns. If the witness satisfies the program, the columns are an execution of the circuit, the public inputs are the values of the public witnesses of the program followed by the eight zeros of the default pairing point, and with the columns computed after the challenges every relation of the proof system holds, unless a challenge makes a denominator zero.", "quantifier": "every program of AssertZero and RANGE opcodes, every list of public inputs, every witness that satisfies the program, every prime field of at least 2^14 elements, every choice of challenges", "why_tests_cant": "Rows, selectors and tables are assembled from nine blocks at positions that depend on the program; one selector or read count that is off makes only some programs unprovable.", "anchors": ["co-noir/co-builder/src/ultra_builder.rs: create_circuit, finalize_circuit, add_gates_to_ensure_all_polys_are_non_zero, create_gates_from_plookup_accumulators, add_default_to_public_inputs", "co-noir/co-builder/src/types/plookup.rs: get_lookup_accumulators, generate_honk_dummy_table", "co-noir/co-builder/src/keys/plain_proving_key.rs: create_prover_instance, construct_lookup_table_polynomials, construct_lookup_read_counts"]}
{"id": "C120", "title": "UltraHonk is complete: a satisfying witness gives an accepted proof", "statement": "Let a witness satisfy a program, let the verification key be made from the program alone with a reference string of powers, and let the plain UltraHonk prover without zero knowledge build its instance and prove. Then the verifier accepts the proof together with the public inputs that the prover returns, and these are the values of the public witnesses of the program, unless a challenge is one of the few values where a denominator is zero, a sumcheck challenge is one of 1 to 7, or the prover leaves out a row that is not zero. The prover fails only if the reference string is too short, the folding challenge is zero or the term of the public inputs divides by zero.", "quantifier": "every program of AssertZero and RANGE opcodes with public inputs, every satisfying witness, every prime field of at least 2^14 and at most 2^256 elements, every long enough reference string, every pairing, every choice of challenges that may depend on everything sent before, with and without padding to the constant proof size", "why_tests_cant": "Completeness ties together the circuit builder, the grand products, the sumcheck, the opening and the order of messages for circuits of any size; a test proves a few fixed programs.", "anchors": ["co-noir/ultrahonk/src/ultra_prover.rs: prove", "co-noir/ultrahonk/src/ultra_verifier.rs: verify", "co-noir/ultrahonk/src/oink/oink_prover.rs: prove", "co-noir/ultrahonk/src/oink/oink_verifier.rs: verify", "co-noir/ultrahonk/src/decider/decider_prover.rs: prove", "co-noir/ultrahonk/src/decider/decider_verifier.rs: verify", "co-noir/co-builder/src/ultra_builder.rs: create_vk_barretenberg"]}
{"id": "C121", "title": "Collaborative UltraHonk is complete: parties with shares of a satisfying witness make an accepted proof", "statement": "Let a witness satisfy a program, and let the parties hold the public columns of its prover instance and shares of the wires, the read counts and the read tags. Then the collaborative UltraHonk prover without zero knowledge fails at no party, all parties return the same proof and the values of the public witnesses as public inputs, and the plain verifier accepts both with the verification key that is made from the program alone, unless a challenge is one of the few values where a denominator is zero or a sumcheck challenge is one of 1 to 7. It is assumed that no jointly drawn random value is zero.", "quantifier": "every program of AssertZero and RANGE opcodes with public inputs, every satisfying witness, all Rep3 shares, all Shamir shares for any number of parties, every schedule of the messages, every prime field of at least 2^14 and at most 2^256 elements, every long enough reference string, every pairing and every choice of challenges that may depend on everything sent before", "why_tests_cant": "A test runs the parties on a few fixed programs with one schedule; the claim is about every program, sharing, randomness and interleaving, and ties together all rounds of the collaborative prover with the verifier.", "anchors": ["co-noir/co-ultrahonk/src/co_ultra_prover.rs: prove_inner, prove", "co-noir/co-ultrahonk/src/co_oink/co_oink_prover.rs: prove, commit_to_wires, commit_to_lookup_counts_and_w4, commit_to_logderiv_inverses, commit_to_z_perm", "co-noir/co-ultrahonk/src/co_decider/types.rs: from_memory_and_polynomials", "co-noir/co-ultrahonk/src/co_decider/co_decider_prover.rs: prove", "co-noir/ultrahonk/src/ultra_verifier.rs: verify"]}
{"id": "C122", "title": "UltraHonk is sound up to the opening: with true claimed values only true statements are accepted", "statement": "Let no assignment satisfy a program with certain public inputs, and let the verification key be made from the program alone. Let a prover choose the wires, the read counts and the read tags as they like, before the challenges for the permutation and the lookup are drawn, and the grand product and the inverses as they like after these are drawn. If the column values that they claim in the proof are the values of the chosen columns and the columns of the key at the point of the sumcheck, then the verifier accepts the proof with these public inputs only if one of the challenges falls into a set of bad values that is fixed before the challenge is drawn: at most 103 n^2 values of beta, 9 n of gamma, 27 of alpha, n - 1 of the gate challenge and 7 of each challenge of the sumcheck, for a circuit of n rows.", "quantifier": "every program of AssertZero and RANGE opcodes with public inputs, every false statement, every choice of columns, every proof, every choice of challenges that may depend on everything sent before, every reference string and pairing, with and without padding to the constant proof size, every prime field that is large enough for the circuit", "why_tests_cant": "Soundness is about all dishonest provers; a test only tries a few changed proofs.", "anchors": ["co-noir/ultrahonk/src/ultra_verifier.rs: verify", "co-noir/ultrahonk/src/oink/oink_verifier.rs: verify", "co-noir/ultrahonk/src/decider/decider_verifier.rs: verify", "co-noir/ultrahonk/src/decider/sumcheck/mod.rs: sumcheck_verify", "co-noir/co-builder/src/ultra_builder.rs: create_circuit, create_vk_barretenberg"]}
{"id": "C123", "title": "The opening protocol of UltraHonk is sound: an algebraic prover cannot open a column to a false value", "statement": "Let a prover know the polynomial behind every point that they send, and let these polynomials not depend on the secret of the reference string. If one of the claimed values of the columns is not the value of the multilinear extension of the coefficients of the committed polynomial at the given point (for a shifted column, of the coefficients from the second on), or a column that is shifted does not begin with zero although the first coordinate of the point is not zero, then the verifier of the opening protocol rejects, unless a challenge or the secret falls into a set of bad values that is fixed before it is drawn. For polynomials of degree at most N and a point with d coordinates these are at most 45 values of the batching challenge, (2N + 2) 2^d + (d+1)^2 2^d of the folding challenge, one of the second batching challenge, N + 4d of the evaluation point and N + 1 of the secret.", "quantifier": "all polynomials, points and claimed values, all messages of the prover, every choice of challenges that may depend on everything sent before, every bilinear pairing with e(g1, g2) not zero, every field in which 2 is not 0", "why_tests_cant": "Soundness is about all dishonest provers; a test only tries a few changed proofs.", "anchors": ["co-noir/ultrahonk/src/decider/shplemini/shplemini_verifier.rs: compute_batch_opening_claim, reduce_verify_shplemini, compute_fold_pos_evaluations, batch_gemini_claims_received_from_prover, compute_inverted_gemini_denominators", "co-noir/ultrahonk/src/decider/decider_verifier.rs: pairing_check, verify"]}
{"id": "C124", "title": "UltraHonk is sound: an algebraic prover cannot make an accepted proof of a false statement", "statement": "Let no assignment satisfy a program with certain public inputs, and let the verification key be made from the program alone with a reference string of powers of a secret. Let a prover know the polynomial behind every point that they send, with no more coefficients than the reference string has points, and let these polynomials not depend on the secret. Then whatever they send, the verifier does not accept it with these public inputs, unless a challenge or the secret falls into a set of bad values that is fixed before it is drawn. If the polynomials have no more coefficients than the circuit has rows, then for a circuit of n rows and d rounds of the sumcheck these are at most 103 n^2 values of beta, 9 n of gamma, 27 of alpha, n - 1 of the gate challenge, 7 of each challenge of the sumcheck and zero for the first one, and in the opening 45, (2n + (d+1)^2) 2^d, 1 and n + 4d values, and n of the secret.", "quantifier": "every program of AssertZero and RANGE opcodes with public inputs, every false statement, all polynomials, univariates and values that a prover may send, every choice of challenges that may depend on everything sent before, every long enough reference string, every bilinear pairing with e(g1, g2) not zero, with and without padding to the constant proof size, every prime field that is large enough for the circuit", "why_tests_cant": "Soundness is about all dishonest provers; a test only tries a few changed proofs.", "anchors": ["co-noir/ultrahonk/src/ultra_verifier.rs: verify", "co-noir/ultrahonk/src/oink/oink_verifier.rs: verify", "co-noir/ultrahonk/src/decider/decider_verifier.rs: verify", "co-noir/ultrahonk/src/decider/shplemini/shplemini_verifier.rs: compute_batch_opening_claim, reduce_verify_shplemini", "co-noir/co-builder/src/ultra_builder.rs: create_circuit, create_vk_barretenberg"]}
