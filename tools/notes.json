{
 "C22": "The full statement (same value at all three parties after any history) is false of the code: C22_false_after_b2a is the counterexample (a binary-to-arithmetic conversion advances the generator at two parties only). C22_generate_shared_partial covers histories without such a conversion.",
 "C27": "Proved for both settings of the conversion (direct, and garbled circuits, which is the default). With garbled circuits the modulus must be odd.",
 "C28": "Proved for both settings of the conversion (direct, and garbled circuits, which is the default). With garbled circuits the modulus must be odd.",
 "C31": "Proved for both settings of the conversion (direct, and garbled circuits, which is the default). With garbled circuits the modulus must be odd.",
 "C35": "For n parties and threshold t with 2t+1 <= n and t+2 <= n (the single-party instance underflows in the generator set-up), in a field in which 0..n are distinct.",
 "C36": "For n parties and threshold t with 2t+1 <= n and t+2 <= n (the single-party instance underflows in the generator set-up), in a field in which 0..n are distinct.",
 "C37": "For n parties and threshold t with 2t+1 <= n and t+2 <= n (the single-party instance underflows in the generator set-up), in a field in which 0..n are distinct.",
 "C38": "For n parties and threshold t with 2t+1 <= n and t+2 <= n (the single-party instance underflows in the generator set-up), in a field in which 0..n are distinct.",
 "C43": "Widths are powers of two (every ring type the crate defines; RUint<BITS> with another width fails only a debug assertion and is outside the claim). Selectors and comparisons are proved for both settings of the conversion.",
 "C44": "Widths are powers of two. Selectors are proved for both settings; with garbled circuits the modulus must be odd and the ring no wider than the modulus.",
 "C45": "ohv and rand_ohv over binary shares, and ohv_from_index (both conversions, tables up to 2^32 entries).",
 "C46": "False of the code for public tables of length two (C46_public_length_two_false) and one (C46_public_length_one_false): the provider panics; the _partial theorems cover lengths from three on. Shared tables: all lengths from two to 2^32, arbitrary histories of reads and writes (C46_history). Out-of-range writes are not ignored although the trait says so: C46_write_out_of_range_false, C46_plain_out_of_range_false.",
 "C47": "False of the code whenever a table is shorter than the longest (C47_different_sizes_false: every party panics in every execution). C47_equal_sizes_partial covers tables of equal length of at least three.",
 "C54": "The full statement is false of the code: C54_false_twice_generator (the promoted point 2G is taken for the point at infinity by the zero test and by the conversion) and C54_false_generator (the promoted generator converts to wrong coordinates, e.g. for the BN254 generator (1,2)). C54_promoted_partial covers every other point.",
 "C55": "For n parties and threshold t with 2t+1 <= n and t+2 <= n (the single-party instance underflows in the generator set-up), in a field in which 0..n are distinct.",
 "C56": "Proved for opening a sharing. The full statement is false of the code for opening a product: C56_false_mul_open is the counterexample (the product polynomial is opened without being re-randomised).",
 "C57": "Curve over Z/p in short Weierstrass form, points are Mathlib's; p < 2^(w-2) for the share width w. Proved for both settings of the conversion; with garbled circuits p must be odd.",
 "C58": "Curve over Z/p in short Weierstrass form, points are Mathlib's; p < 2^(w-2) for the share width w. Proved for both settings of the conversion; with garbled circuits p must be odd.",
 "C59": "The full statement is false of the code: C59_false_batch (one mask hides all points of a batch, so party 2 receives numbers whose differences are differences of secret coordinates). C59_single_first_message_partial covers the first round of the conversion of one point; later rounds are missing.",
 "C60": "The batched lookup is false of the code (C60_batch_false: it uses the number of tables for their length); C60_batch_partial covers the case where both round up to the same power of two. Single tables are proved; reads and writes of shared tables are C46_get_shared and C46_write, which are stated for any module over the scalar field.",
 "C61": "mpc_net::join with two closures; join3 and up are not modelled.",
 "C48": "Permutations are shared as images counted from one, in the 32-bit permutation ring, for fewer than 2^32 elements. The order revealed by the shuffle is proved to be the shuffled order; its uniformity is not modelled.",
 "C49": "For both settings of the conversion; with garbled circuits p must be odd. With bit size zero the code still orders public inputs by their lowest bit (C49_bitsize_zero), so the statement starts at bit size one.",
 "C52": "The full statement is false of the code: C52_false (0 + 1 = 3), C52_actual says exactly what the circuit computes (two too much for an odd number and an even constant). C52_odd_constant_partial covers odd constants and width one.",
 "C62": "The full statement is false of the code: C62_false (verification accepts wire numbers beyond the number of wires; evaluation then panics). C62_evaluates_partial covers netlists whose wire numbers are in range; C62_default_unused holds for every verified netlist.",
 "C78": "For Circom keys the domain is smaller than the largest one of the field (F18). Group laws, multi-scalar multiplication and bilinearity of the pairing are assumed (modules over the scalar field).",
 "C79": "Perfect zero knowledge between witnesses: a bijection on the random values (r, s). That the parties' joint r and s are uniform is not part of it.",
 "C81": "Partial because the full claim is false of the code: comparisons of a public with an equal secret value are wrong (C81_compare_equal), and some calls panic or are unsupported (finding F21). The calls covered are listed by the executable predicate `supported`.",
 "C88": "The readers of decimal and hexadecimal numbers (ark-ff, num-bigint) are parameters. Names must not contain `[`, as is the case for circom signals. Maps are iterated in the order of insertion.",
 "C89": "With `C89_extra_public_entry`: the count includes public entries that the circuit does not have, so another user can have a secret opened (finding F27).",
 "C90": "The seeds of the preprocessing and of the dealer are arguments; file formats are not modelled.",
 "C91": "Groth16 with the key of snarkjs (circom reduction). Witness extension and proving have separate generator states, as in the command line tools; the second phase is stated for all states.",
 "C92": "Brillig calls and the black box functions other than RANGE, AND and XOR are not modelled. The output is in reversed order, as in the code.",
 "C93": "Tables with fewer than three entries panic for a secret index (F10), and XOR of secrets needs 2^bits ≤ p (F21).",
 "C94": "Partial because the full claim is false of the code (C94_satisfied_false, C94_read_overwrites; finding F28). Proved: the result satisfies the program if and only if the unchecked constraints hold.",
 "C95": "Partial because the full claim is false of the code: the coefficient of a product of a public and a shared witness is dropped (C95_coefficient_false, finding F29). Tables, AND and XOR of shares are unimplemented in the driver.",
 "C96": "The transcript hash is an arbitrary function, the pairing any bilinear map, and the Fourier transforms of ark-poly are modelled by what they compute. The exceptional challenges are those of the run itself: Queries gives what is hashed, and is fixed before the hash function. Domains with fewer than eight points and circuits without public input are excluded (finding F30).",
 "C97": "thread_rng is an arbitrary sequence of field elements. C97_zero_random shows the panic with a zero (finding F31).",
 "C98": "Forks and draws are followed exactly: MaskZero names the at most 18 n + 6 draws of round 2 that must not be zero. The exceptional challenges are excluded as in C96.",
 "C99": "Buffered says that the states hold shares of the pairs; C99_preprocessing shows that ShamirPreprocessing::new with domain_size * 222 + 15 gives such states.",
 "C100": "Round-by-round soundness for algebraic provers: Lucky gives for each challenge a set that depends only on the messages before it, with bounds on its size (9 n^2, 3 n, 2 n, 4 d + 3 n, 5, 2 values, and d + 1 for the secret of the setup). The wires come from the first message, so this is also extraction of the witness. That no prover can do anything but commit to known polynomials is the usual assumption of the algebraic group model and is not provable here; nor is that a hash function rarely hits the sets. C100_key, C100_circuit and C100_signals connect the circuit of a verification key with the proving key of C96-C99.",
 "C101": "extend_from has closed forms for 2, 3 and 4 values and barycentric interpolation otherwise; all four are covered. The condition that the nodes are different field elements holds for every field of more than 8 elements that the code is used with. Panics: F33.",
 "C102": "All nine relations. The specification Subrel.value is one formula per subrelation, also used over polynomials for the degree bound.",
 "C103": "Without zero knowledge (BATCHED_RELATION_PARTIAL_LENGTH 8); the transcript is an arbitrary function of the univariates sent so far. C103_tidy gives the condition on skipping from a condition on the circuit (rows with z_perm = z_perm_shift are in no copy constraint) and on the challenges (no cancellation); C103_rejected is an honest proof of a satisfied, untidy table that the verifier rejects (F34).",
 "C104": "Round-by-round: the sets of 27 alphas, 2^d - 1 gate challenges and 7 round challenges are fixed before the challenge is drawn (they are chosen before the transcript function is). That the claimed evaluations are those of committed columns is the job of the opening protocol (Gemini/Shplonk/KZG), which is not modelled.",
 "C105": "For circuits with at least one row: with no row at all the permutation relations fail at row 0 (the column is 1 where the last Lagrange polynomial is 1).",
 "C106": "Requires that 0, ..., 5*2^28 + (number of tags) are different in the field and that every tag is below that number, which holds for BN254 (the code separates the columns by 2^28 and offsets tags by it). The sets of exceptional challenges have at most (10 rows)^2 and 5 rows + 4 elements.",
 "C107": "For public indices; the secret-shared indices take another path in the code that is not modelled. The wires in the memory gates are arbitrary.",
 "C108": "The sets of exceptional challenges have at most 3n^2 and 4n elements. The lookup selector is 0 or 1 in every row (it is written by the verifier's preprocessing).",
 "C109": "That the claimed evaluations are those of committed columns is the job of the opening protocol, which is not modelled.",
 "C110": "That the builder lists the right rows is not modelled (populate_memory_records).",
 "C111": "A zero random mask makes the corresponding inverse silently zero (C111_zero_random, finding F36). Masking and commitments of the columns are not modelled.",
 "C112": "A zero denominator is an error for the parties and a column for the prover in the clear (C112_zero_denominator, finding F36).",
 "C113": "Programs of the opcodes AssertZero and RANGE with witness inputs; other opcodes (memory, AND, XOR, black box functions, Brillig outputs) are an error of the model. The rows of the blocks other than arithmetic and delta_range are arbitrary.",
 "C114": "As for C113, programs of AssertZero and RANGE opcodes; the values of shared witnesses are not modelled.",
 "C115": "As for C113, programs of AssertZero and RANGE opcodes. The rows of the other blocks and the lookups, which do not come from these opcodes, are assumed to hold. That the translation of the opcodes succeeds is assumed too: C113_cancelling shows that it can panic.",
 "C116": "Without zero knowledge, as C103. The transcript is any function from the univariates sent so far to the challenge. C116_differs is a satisfied table on which the plain prover is rejected and the parties are accepted (findings F34, F38).",
 "C117": "Completeness, without zero knowledge; that no other values are accepted rests on the commitments being binding and is outside the model. The table must have at least four rows (smaller circuits do not occur). C117_wrong is a run in which a wrong value is rejected.",
 "C118": "Without zero knowledge. The challenges of the opening are any functions of the sumcheck and of what was sent since. The result of eval_poly is any value that the parallel evaluation can return.",
 "C119": "As for C113, programs of AssertZero and RANGE opcodes. That the instance can be built is a hypothesis, met by the example; C113_cancelling shows that building can panic.",
 "C120": "Completeness, without zero knowledge and memory records. The transcript is any function from the key, the public inputs and what was sent so far to the challenges; the flat encoding of the proof is not modelled. GoodRun lists the challenges that are excluded; the example shows a run that meets it.",
 "C121": "Without zero knowledge and memory records. The proving key and the shares of the columns are given; how the parties make them from shares of the witness is not part of this claim (for the witness solver see C61 and others). No hypothesis on skipped rows is needed, since the collaborative sumcheck skips nothing that matters (C116). The bound 24 n + 6 on the random values drawn is for n rows.",
 "C122": "Without zero knowledge and memory opcodes. That the claimed values are those of the committed columns is the job of the opening protocol; here it is the premise, see C123 and C124 for algebraic provers. The value of eta is fixed before the columns are, since the fourth wire may depend on it.",
 "C123": "Algebraic prover: that a prover who sends points knows such polynomials, and that they cannot depend on the secret, is the usual idealisation (algebraic group model and hardness of discrete logarithms) and is not proved. Without zero knowledge.",
 "C124": "C122 and C123 combined, with the same idealisation of the prover. Partial: the polynomials of the prover have no more coefficients than the circuit has rows. The reference string may be longer, and then provers who use the further points are not covered: with padding, their columns would have up to 2^25 rows, and C122 is about the rows of the circuit. The hash behind the challenges is not modelled: the challenges are arbitrary functions of everything sent before, and the bad sets are fixed before each of them."
}