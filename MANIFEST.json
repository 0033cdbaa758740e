{
 "claims": [
  {
   "property": "C01",
   "status": "proved",
   "theorems": [
    "Verif.Props.C01_element",
    "Verif.Props.C01_elements",
    "Verif.Props.C01_combine",
    "Verif.Props.C01_maybe"
   ],
   "note": ""
  },
  {
   "property": "C02",
   "status": "proved",
   "theorems": [
    "Verif.Props.C02_additive",
    "Verif.Props.C02_additive_vec",
    "Verif.Props.C02_seeded",
    "Verif.Props.C02_seeded_additive",
    "Verif.Props.C02_seeded_vec",
    "Verif.Props.C02_seeded_additive_vec",
    "Verif.Props.C02_reject",
    "Verif.Props.C02_length"
   ],
   "note": ""
  },
  {
   "property": "C03",
   "status": "proved",
   "theorems": [
    "Verif.Props.C03_binary",
    "Verif.Props.C03_binary_width",
    "Verif.Props.C03_combine_binary",
    "Verif.Props.C03_point",
    "Verif.Props.C03_points"
   ],
   "note": ""
  },
  {
   "property": "C04",
   "status": "proved",
   "theorems": [
    "Verif.Props.C04_share_privacy",
    "Verif.Props.C04_share_privacy_single",
    "Verif.Props.C04_share_possible",
    "Verif.Props.C04_binary_privacy"
   ],
   "note": ""
  },
  {
   "property": "C05",
   "status": "proved",
   "theorems": [
    "Verif.Props.C05_replicated"
   ],
   "note": ""
  },
  {
   "property": "C06",
   "status": "proved",
   "theorems": [
    "Verif.Props.C06_linear",
    "Verif.Props.C06_linear_vec",
    "Verif.Props.C06_pow2"
   ],
   "note": ""
  },
  {
   "property": "C07",
   "status": "proved",
   "theorems": [
    "Verif.Props.C07_mul"
   ],
   "note": ""
  },
  {
   "property": "C08",
   "status": "proved",
   "theorems": [
    "Verif.Props.C08_mul_vec",
    "Verif.Props.C08_add_mul",
    "Verif.Props.C08_local_then_reshare",
    "Verif.Props.C08_wrong_length"
   ],
   "note": ""
  },
  {
   "property": "C09",
   "status": "proved",
   "theorems": [
    "Verif.Props.C09_open",
    "Verif.Props.C09_open_vec"
   ],
   "note": ""
  },
  {
   "property": "C10",
   "status": "proved",
   "theorems": [
    "Verif.Props.C10_mul_open",
    "Verif.Props.C10_mul_open_vec"
   ],
   "note": ""
  },
  {
   "property": "C11",
   "status": "proved",
   "theorems": [
    "Verif.Props.C11_div_shared_by_public",
    "Verif.Props.C11_inv",
    "Verif.Props.C11_div",
    "Verif.Props.C11_div_public",
    "Verif.Props.C11_inv_vec"
   ],
   "note": ""
  },
  {
   "property": "C12",
   "status": "proved",
   "theorems": [
    "Verif.Props.C12_sqrt"
   ],
   "note": ""
  },
  {
   "property": "C13",
   "status": "proved",
   "theorems": [
    "Verif.Props.C13_cmux",
    "Verif.Props.C13_cmux_vec"
   ],
   "note": ""
  },
  {
   "property": "C14",
   "status": "proved",
   "theorems": [
    "Verif.Props.C14_pow"
   ],
   "note": ""
  },
  {
   "property": "C15",
   "status": "proved",
   "theorems": [
    "Verif.Props.C15_never_drifts",
    "Verif.Props.C15_history"
   ],
   "note": ""
  },
  {
   "property": "C16",
   "status": "proved",
   "theorems": [
    "Verif.Props.C16_setup"
   ],
   "note": ""
  },
  {
   "property": "C17",
   "status": "proved",
   "theorems": [
    "Verif.Props.C17_schedule_independent",
    "Verif.Props.C17_deadlock_independent",
    "Verif.Props.C17_two_runs_agree"
   ],
   "note": ""
  },
  {
   "property": "C18",
   "status": "proved",
   "theorems": [
    "Verif.Props.C18_reshare",
    "Verif.Props.C18_two_parties",
    "Verif.Props.C18_missing_input"
   ],
   "note": ""
  },
  {
   "property": "C19",
   "status": "proved",
   "theorems": [
    "Verif.Props.C19_xor",
    "Verif.Props.C19_xor_vec"
   ],
   "note": ""
  },
  {
   "property": "C20",
   "status": "proved",
   "theorems": [
    "Verif.Props.C20_program"
   ],
   "note": ""
  },
  {
   "property": "C21",
   "status": "proved",
   "theorems": [
    "Verif.Props.C21_simulation",
    "Verif.Props.C21_indistinguishable"
   ],
   "note": ""
  },
  {
   "property": "C22",
   "status": "partial",
   "theorems": [
    "Verif.Props.C22_generate_shared_partial",
    "Verif.Props.C22_parties_one_two_agree",
    "Verif.Props.C22_false_after_b2a"
   ],
   "note": "The full statement (same value at all three parties after any history) is false of the code: C22_false_after_b2a is the counterexample (a binary-to-arithmetic conversion advances the generator at two parties only). C22_generate_shared_partial covers histories without such a conversion."
  },
  {
   "property": "C23",
   "status": "proved",
   "theorems": [
    "Verif.Props.C23_add_mod_p",
    "Verif.Props.C23_add_mod_p_many",
    "Verif.Props.C23_add",
    "Verif.Props.C23_add_many",
    "Verif.Props.C23_sub",
    "Verif.Props.C23_sub_by_const",
    "Verif.Props.C23_sub_from_const"
   ],
   "note": ""
  },
  {
   "property": "C24",
   "status": "proved",
   "theorems": [
    "Verif.Props.C24_a2b",
    "Verif.Props.C24_a2b_many",
    "Verif.Props.C24_a2b_selector"
   ],
   "note": ""
  },
  {
   "property": "C25",
   "status": "proved",
   "theorems": [
    "Verif.Props.C25_b2a",
    "Verif.Props.C25_b2a_many",
    "Verif.Props.C25_b2a_selector",
    "Verif.Props.C25_roundtrip"
   ],
   "note": ""
  },
  {
   "property": "C26",
   "status": "proved",
   "theorems": [
    "Verif.Props.C26_bit_inject",
    "Verif.Props.C26_bit_inject_many",
    "Verif.Props.C26_bit_inject_from_bits",
    "Verif.Props.C26_bit_inject_reject"
   ],
   "note": ""
  },
  {
   "property": "C27",
   "status": "proved",
   "theorems": [
    "Verif.Props.C27_bits",
    "Verif.Props.C27_compare",
    "Verif.Props.C27_compare_public"
   ],
   "note": "Proved for both settings of the conversion (direct, and garbled circuits, which is the default). With garbled circuits the modulus must be odd."
  },
  {
   "property": "C28",
   "status": "proved",
   "theorems": [
    "Verif.Props.C28_eq_bit",
    "Verif.Props.C28_eq",
    "Verif.Props.C28_eq_many",
    "Verif.Props.C28_eq_public_many",
    "Verif.Props.C28_eq_many_lengths",
    "Verif.Props.C28_is_zero",
    "Verif.Props.C28_binary_is_zero",
    "Verif.Props.C28_binary_is_zero_many"
   ],
   "note": "Proved for both settings of the conversion (direct, and garbled circuits, which is the default). With garbled circuits the modulus must be odd."
  },
  {
   "property": "C29",
   "status": "proved",
   "theorems": [
    "Verif.Props.C29_local",
    "Verif.Props.C29_xor_public_vec",
    "Verif.Props.C29_shifts",
    "Verif.Props.C29_and",
    "Verif.Props.C29_and_vec",
    "Verif.Props.C29_or",
    "Verif.Props.C29_open",
    "Verif.Props.C29_cmux",
    "Verif.Props.C29_cmux_many",
    "Verif.Props.C29_cmux_many_lengths"
   ],
   "note": ""
  },
  {
   "property": "C30",
   "status": "proved",
   "theorems": [
    "Verif.Props.C30_or_tree",
    "Verif.Props.C30_or_tree_empty"
   ],
   "note": ""
  },
  {
   "property": "C31",
   "status": "proved",
   "theorems": [
    "Verif.Props.C31_shift_l_public_by_shared",
    "Verif.Props.C31_shift_exact"
   ],
   "note": "Proved for both settings of the conversion (direct, and garbled circuits, which is the default). With garbled circuits the modulus must be odd."
  },
  {
   "property": "C32",
   "status": "proved",
   "theorems": [
    "Verif.Props.C32_share",
    "Verif.Props.C32_combine",
    "Verif.Props.C32_reject",
    "Verif.Props.C32_share_vec",
    "Verif.Props.C32_combine_vec",
    "Verif.Props.C32_reject_vec"
   ],
   "note": ""
  },
  {
   "property": "C33",
   "status": "proved",
   "theorems": [
    "Verif.Props.C33_privacy",
    "Verif.Props.C33_possible"
   ],
   "note": ""
  },
  {
   "property": "C34",
   "status": "proved",
   "theorems": [
    "Verif.Props.C34_linear",
    "Verif.Props.C34_linear_vec",
    "Verif.Props.C34_div_public"
   ],
   "note": ""
  },
  {
   "property": "C35",
   "status": "proved",
   "theorems": [
    "Verif.Props.C35_mul",
    "Verif.Props.C35_mul_vec",
    "Verif.Props.C35_degree_reduce"
   ],
   "note": "For n parties and threshold t with 2t+1 <= n and t+2 <= n (the single-party instance underflows in the generator set-up), in a field in which 0..n are distinct."
  },
  {
   "property": "C36",
   "status": "proved",
   "theorems": [
    "Verif.Props.C36_open",
    "Verif.Props.C36_open_vec",
    "Verif.Props.C36_mul_open",
    "Verif.Props.C36_mul_open_vec"
   ],
   "note": "For n parties and threshold t with 2t+1 <= n and t+2 <= n (the single-party instance underflows in the generator set-up), in a field in which 0..n are distinct."
  },
  {
   "property": "C37",
   "status": "proved",
   "theorems": [
    "Verif.Props.C37_setup",
    "Verif.Props.C37_threshold",
    "Verif.Props.C37_refill"
   ],
   "note": "For n parties and threshold t with 2t+1 <= n and t+2 <= n (the single-party instance underflows in the generator set-up), in a field in which 0..n are distinct."
  },
  {
   "property": "C38",
   "status": "proved",
   "theorems": [
    "Verif.Props.C38_get_pair",
    "Verif.Props.C38_get_pair_refill",
    "Verif.Props.C38_fork",
    "Verif.Props.C38_fork_too_large",
    "Verif.Props.C38_history",
    "Verif.Props.C38_history_stock"
   ],
   "note": "For n parties and threshold t with 2t+1 <= n and t+2 <= n (the single-party instance underflows in the generator set-up), in a field in which 0..n are distinct."
  },
  {
   "property": "C39",
   "status": "proved",
   "theorems": [
    "Verif.Props.C39_rep3",
    "Verif.Props.C39_rep3_vec",
    "Verif.Props.C39_additive",
    "Verif.Props.C39_additive_vec"
   ],
   "note": ""
  },
  {
   "property": "C40",
   "status": "proved",
   "theorems": [
    "Verif.Props.C40_rep3",
    "Verif.Props.C40_shamir",
    "Verif.Props.C40_result"
   ],
   "note": ""
  },
  {
   "property": "C41",
   "status": "proved",
   "theorems": [
    "Verif.Props.C41_linear",
    "Verif.Props.C41_promote",
    "Verif.Props.C41_scalar_mul",
    "Verif.Props.C41_scalar_mul_local",
    "Verif.Props.C41_scalar_mul_many",
    "Verif.Props.C41_open",
    "Verif.Props.C41_open_many",
    "Verif.Props.C41_open_point_and_field",
    "Verif.Props.C41_open_point_and_field_many",
    "Verif.Props.C41_msm",
    "Verif.Props.C41_shamir_scalar_mul",
    "Verif.Props.C41_shamir_open_point_and_field",
    "Verif.Props.C41_shamir_open_point_and_field_many",
    "Verif.Props.C41_shamir_msm"
   ],
   "note": ""
  },
  {
   "property": "C42",
   "status": "proved",
   "theorems": [
    "Verif.Props.C42_share",
    "Verif.Props.C42_share_vec",
    "Verif.Props.C42_linear",
    "Verif.Props.C42_linear_vec",
    "Verif.Props.C42_pow2",
    "Verif.Props.C42_mul",
    "Verif.Props.C42_mul_vec",
    "Verif.Props.C42_add_mul",
    "Verif.Props.C42_cmux",
    "Verif.Props.C42_open",
    "Verif.Props.C42_open_vec",
    "Verif.Props.C42_open_bits",
    "Verif.Props.C42_mul_open",
    "Verif.Props.C42_pow",
    "Verif.Props.C42_arithmetic_xor",
    "Verif.Props.C42_and"
   ],
   "note": ""
  },
  {
   "property": "C43",
   "status": "proved",
   "theorems": [
    "Verif.Props.C43_a2b",
    "Verif.Props.C43_a2b_many",
    "Verif.Props.C43_b2a",
    "Verif.Props.C43_b2a_many",
    "Verif.Props.C43_roundtrip",
    "Verif.Props.C43_selectors",
    "Verif.Props.C43_bit_inject",
    "Verif.Props.C43_bit_inject_many",
    "Verif.Props.C43_inject_from_bit",
    "Verif.Props.C43_inject_from_bits",
    "Verif.Props.C43_inject_from_bits_field",
    "Verif.Props.C43_compare",
    "Verif.Props.C43_compare_public",
    "Verif.Props.C43_is_zero"
   ],
   "note": "Widths are powers of two (every ring type the crate defines; RUint<BITS> with another width fails only a debug assertion and is outside the claim). Selectors and comparisons are proved for both settings of the conversion."
  },
  {
   "property": "C44",
   "status": "proved",
   "theorems": [
    "Verif.Props.C44_downcast",
    "Verif.Props.C44_upcast",
    "Verif.Props.C44_cast",
    "Verif.Props.C44_field_to_ring",
    "Verif.Props.C44_field_to_ring_many",
    "Verif.Props.C44_ring_to_field",
    "Verif.Props.C44_ring_to_field_small",
    "Verif.Props.C44_ring_to_field_many",
    "Verif.Props.C44_big_ring_to_field",
    "Verif.Props.C44_big_ring_to_field_many",
    "Verif.Props.C44_selectors"
   ],
   "note": "Widths are powers of two. Selectors are proved for both settings; with garbled circuits the modulus must be odd and the ring no wider than the modulus."
  },
  {
   "property": "C45",
   "status": "proved",
   "theorems": [
    "Verif.Props.C45_ohv",
    "Verif.Props.C45_rand_ohv",
    "Verif.Props.C45_ohv_from_index"
   ],
   "note": "ohv and rand_ohv over binary shares, and ohv_from_index (both conversions, tables up to 2^32 entries)."
  },
  {
   "property": "C46",
   "status": "partial",
   "theorems": [
    "Verif.Props.C46_get_public_partial",
    "Verif.Props.C46_get_public_no_b2a_partial",
    "Verif.Props.C46_read_public_lut",
    "Verif.Props.C46_public_length_two_false",
    "Verif.Props.C46_public_length_one_false",
    "Verif.Props.C46_get_shared",
    "Verif.Props.C46_write",
    "Verif.Props.C46_write_from_ohv",
    "Verif.Props.C46_write_out_of_range_false",
    "Verif.Props.C46_history",
    "Verif.Props.C46_plain",
    "Verif.Props.C46_plain_out_of_range_false"
   ],
   "note": "False of the code for public tables of length two (C46_public_length_two_false) and one (C46_public_length_one_false): the provider panics; the _partial theorems cover lengths from three on. Shared tables: all lengths from two to 2^32, arbitrary histories of reads and writes (C46_history). Out-of-range writes are not ignored although the trait says so: C46_write_out_of_range_false, C46_plain_out_of_range_false."
  },
  {
   "property": "C47",
   "status": "partial",
   "theorems": [
    "Verif.Props.C47_equal_sizes_partial",
    "Verif.Props.C47_different_sizes_false"
   ],
   "note": "False of the code whenever a table is shorter than the longest (C47_different_sizes_false: every party panics in every execution). C47_equal_sizes_partial covers tables of equal length of at least three."
  },
  {
   "property": "C48",
   "status": "proved",
   "theorems": [
    "Verif.Props.C48_shuffle_unshuffle",
    "Verif.Props.C48_shuffle_reveal",
    "Verif.Props.C48_apply_inv",
    "Verif.Props.C48_compose",
    "Verif.Props.C48_bit_perm"
   ],
   "note": "Permutations are shared as images counted from one, in the 32-bit permutation ring, for fewer than 2^32 elements. The order revealed by the shuffle is proved to be the shuffled order; its uniformity is not modelled."
  },
  {
   "property": "C49",
   "status": "proved",
   "theorems": [
    "Verif.Props.C49_radix_sort",
    "Verif.Props.C49_sorted",
    "Verif.Props.C49_radix_sort_vec_by",
    "Verif.Props.C49_bitsize_zero",
    "Verif.Props.C49_too_many",
    "Verif.Props.C49_bitsize_too_large"
   ],
   "note": "For both settings of the conversion; with garbled circuits p must be odd. With bit size zero the code still orders public inputs by their lowest bit (C49_bitsize_zero), so the statement starts at bit size one."
  },
  {
   "property": "C50",
   "status": "proved",
   "theorems": [
    "Verif.Props.C50_and",
    "Verif.Props.C50_colour_needed",
    "Verif.Props.C50_xor",
    "Verif.Props.C50_not",
    "Verif.Props.C50_netlist",
    "Verif.Props.C50_evaluator_decodes",
    "Verif.Props.C50_garbler_decodes"
   ],
   "note": ""
  },
  {
   "property": "C51",
   "status": "proved",
   "theorems": [
    "Verif.Props.C51_add",
    "Verif.Props.C51_add_mod",
    "Verif.Props.C51_sub",
    "Verif.Props.C51_sub_const",
    "Verif.Props.C51_add_mod_p",
    "Verif.Props.C51_ge",
    "Verif.Props.C51_lt",
    "Verif.Props.C51_le",
    "Verif.Props.C51_gt",
    "Verif.Props.C51_mux",
    "Verif.Props.C51_mul_const",
    "Verif.Props.C51_div",
    "Verif.Props.C51_div_by_public",
    "Verif.Props.C51_div_by_shared"
   ],
   "note": ""
  },
  {
   "property": "C52",
   "status": "partial",
   "theorems": [
    "Verif.Props.C52_false",
    "Verif.Props.C52_actual",
    "Verif.Props.C52_odd_constant_partial"
   ],
   "note": "The full statement is false of the code: C52_false (0 + 1 = 3), C52_actual says exactly what the circuit computes (two too much for an odd number and an even constant). C52_odd_constant_partial covers odd constants and width one."
  },
  {
   "property": "C53",
   "status": "proved",
   "theorems": [
    "Verif.Props.C53_sorts",
    "Verif.Props.C53_sorts_field"
   ],
   "note": ""
  },
  {
   "property": "C54",
   "status": "partial",
   "theorems": [
    "Verif.Props.C54_promoted_partial",
    "Verif.Props.C54_false_twice_generator",
    "Verif.Props.C54_false_generator"
   ],
   "note": "The full statement is false of the code: C54_false_twice_generator (the promoted point 2G is taken for the point at infinity by the zero test and by the conversion) and C54_false_generator (the promoted generator converts to wrong coordinates, e.g. for the BN254 generator (1,2)). C54_promoted_partial covers every other point."
  },
  {
   "property": "C55",
   "status": "proved",
   "theorems": [
    "Verif.Props.C55_inv",
    "Verif.Props.C55_inv_any",
    "Verif.Props.C55_inv_vec",
    "Verif.Props.C55_div"
   ],
   "note": "For n parties and threshold t with 2t+1 <= n and t+2 <= n (the single-party instance underflows in the generator set-up), in a field in which 0..n are distinct."
  },
  {
   "property": "C56",
   "status": "partial",
   "theorems": [
    "Verif.Props.C56_open_partial",
    "Verif.Props.C56_false_mul_open"
   ],
   "note": "Proved for opening a sharing. The full statement is false of the code for opening a product: C56_false_mul_open is the counterexample (the product polynomial is opened without being re-randomised)."
  },
  {
   "property": "C57",
   "status": "proved",
   "theorems": [
    "Verif.Props.C57_point_to_coordinates",
    "Verif.Props.C57_is_zero",
    "Verif.Props.C57_zero_component",
    "Verif.Props.C57_point_to_coordinates_many",
    "Verif.Props.C57_is_zero_many"
   ],
   "note": "Curve over Z/p in short Weierstrass form, points are Mathlib's; p < 2^(w-2) for the share width w. Proved for both settings of the conversion; with garbled circuits p must be odd."
  },
  {
   "property": "C58",
   "status": "proved",
   "theorems": [
    "Verif.Props.C58_coordinates_to_point",
    "Verif.Props.C58_coordinates_to_point_many"
   ],
   "note": "Curve over Z/p in short Weierstrass form, points are Mathlib's; p < 2^(w-2) for the share width w. Proved for both settings of the conversion; with garbled circuits p must be odd."
  },
  {
   "property": "C59",
   "status": "partial",
   "theorems": [
    "Verif.Props.C59_false_batch",
    "Verif.Props.C59_single_first_message_partial"
   ],
   "note": "The full statement is false of the code: C59_false_batch (one mask hides all points of a batch, so party 2 receives numbers whose differences are differences of secret coordinates). C59_single_first_message_partial covers the first round of the conversion of one point; later rounds are missing."
  },
  {
   "property": "C60",
   "status": "partial",
   "theorems": [
    "Verif.Props.C60_get_public",
    "Verif.Props.C60_write",
    "Verif.Props.C60_batch_partial",
    "Verif.Props.C60_batch_false"
   ],
   "note": "The batched lookup is false of the code (C60_batch_false: it uses the number of tables for their length); C60_batch_partial covers the case where both round up to the same power of two. Single tables are proved; reads and writes of shared tables are C46_get_shared and C46_write, which are stated for any module over the scalar field."
  },
  {
   "property": "C61",
   "status": "proved",
   "theorems": [
    "Verif.Props.C61_join",
    "Verif.Props.C61_join_fails"
   ],
   "note": "mpc_net::join with two closures; join3 and up are not modelled."
  },
  {
   "property": "C62",
   "status": "partial",
   "theorems": [
    "Verif.Props.C62_default_unused",
    "Verif.Props.C62_false",
    "Verif.Props.C62_evaluates_partial"
   ],
   "note": "The full statement is false of the code: C62_false (verification accepts wire numbers beyond the number of wires; evaluation then panics). C62_evaluates_partial covers netlists whose wire numbers are in range; C62_default_unused holds for every verified netlist."
  },
  {
   "property": "C63",
   "status": "proved",
   "theorems": [
    "Verif.Props.C63_delta",
    "Verif.Props.C63_a2y",
    "Verif.Props.C63_a2y_streaming",
    "Verif.Props.C63_a2y_many",
    "Verif.Props.C63_b2y"
   ],
   "note": ""
  },
  {
   "property": "C64",
   "status": "proved",
   "theorems": [
    "Verif.Props.C64_y2b",
    "Verif.Props.C64_a2y2b",
    "Verif.Props.C64_a2y2b_streaming",
    "Verif.Props.C64_a2y2b_many"
   ],
   "note": ""
  },
  {
   "property": "C65",
   "status": "proved",
   "theorems": [
    "Verif.Props.C65_y2a",
    "Verif.Props.C65_y2a_streaming",
    "Verif.Props.C65_b2y2a",
    "Verif.Props.C65_b2y2a_streaming",
    "Verif.Props.C65_separated"
   ],
   "note": ""
  },
  {
   "property": "C66",
   "status": "proved",
   "theorems": [
    "Verif.Props.C66_div",
    "Verif.Props.C66_div_many",
    "Verif.Props.C66_div_by_public",
    "Verif.Props.C66_div_by_public_many",
    "Verif.Props.C66_div_by_shared",
    "Verif.Props.C66_div_by_shared_many",
    "Verif.Props.C66_div_power_2",
    "Verif.Props.C66_div_power_2_many"
   ],
   "note": ""
  },
  {
   "property": "C67",
   "status": "proved",
   "theorems": [
    "Verif.Props.C67_decompose",
    "Verif.Props.C67_decompose_many",
    "Verif.Props.C67_mod_power_2",
    "Verif.Props.C67_slice",
    "Verif.Props.C67_slice_many"
   ],
   "note": ""
  },
  {
   "property": "C68",
   "status": "proved",
   "theorems": [
    "Verif.Props.C68_div",
    "Verif.Props.C68_div_many",
    "Verif.Props.C68_div_by_public",
    "Verif.Props.C68_div_by_public_many",
    "Verif.Props.C68_div_by_shared",
    "Verif.Props.C68_div_by_shared_many",
    "Verif.Props.C68_div_power_2",
    "Verif.Props.C68_div_power_2_many"
   ],
   "note": ""
  },
  {
   "property": "C69",
   "status": "proved",
   "theorems": [
    "Verif.Props.C69_to_rings",
    "Verif.Props.C69_to_rings_many",
    "Verif.Props.C69_div_to_limbs_many",
    "Verif.Props.C69_div_to_limbs",
    "Verif.Props.C69_div_to_limbs_drops_remainder"
   ],
   "note": ""
  },
  {
   "property": "C70",
   "status": "proved",
   "theorems": [
    "Verif.Props.C70_a2b",
    "Verif.Props.C70_b2a",
    "Verif.Props.C70_field_to_ring",
    "Verif.Props.C70_ring_to_field",
    "Verif.Props.C70_upcast"
   ],
   "note": ""
  },
  {
   "property": "C71",
   "status": "proved",
   "theorems": [
    "Verif.Props.C71_params",
    "Verif.Props.C71_params_reject",
    "Verif.Props.C71_plain",
    "Verif.Props.C71_diagonal_ignored",
    "Verif.Props.C71_empty_state"
   ],
   "note": ""
  },
  {
   "property": "C72",
   "status": "proved",
   "theorems": [
    "Verif.Props.C72_precompute",
    "Verif.Props.C72_precompute_additive",
    "Verif.Props.C72_pool",
    "Verif.Props.C72_pool_exhausted",
    "Verif.Props.C72_precomp",
    "Verif.Props.C72_packed",
    "Verif.Props.C72_additive",
    "Verif.Props.C72_direct",
    "Verif.Props.C72_packed_exhausted",
    "Verif.Props.C72_additive_exhausted"
   ],
   "note": ""
  },
  {
   "property": "C73",
   "status": "proved",
   "theorems": [
    "Verif.Props.C73_precompute",
    "Verif.Props.C73_precomp",
    "Verif.Props.C73_packed",
    "Verif.Props.C73_direct",
    "Verif.Props.C73_pool",
    "Verif.Props.C73_pool_exhausted",
    "Verif.Props.C73_packed_exhausted"
   ],
   "note": ""
  },
  {
   "property": "C74",
   "status": "proved",
   "theorems": [
    "Verif.Props.C74_sponge",
    "Verif.Props.C74_compression",
    "Verif.Props.C74_reject",
    "Verif.Props.C74_reject_arity",
    "Verif.Props.C74_single_leaf",
    "Verif.Props.C74_rep3_sponge",
    "Verif.Props.C74_rep3_compression",
    "Verif.Props.C74_rep3_reject",
    "Verif.Props.C74_shamir_sponge",
    "Verif.Props.C74_shamir_compression",
    "Verif.Props.C74_shamir_reject"
   ],
   "note": ""
  },
  {
   "property": "C75",
   "status": "proved",
   "theorems": [
    "Verif.Props.C75_witness_sponge",
    "Verif.Props.C75_witness_compression",
    "Verif.Props.C75_verify_sponge",
    "Verif.Props.C75_verify_compression",
    "Verif.Props.C75_sound_sponge",
    "Verif.Props.C75_sound_compression",
    "Verif.Props.C75_inner_node_accepted"
   ],
   "note": ""
  },
  {
   "property": "C76",
   "status": "proved",
   "theorems": [
    "Verif.Props.C76_roots_of_unity",
    "Verif.Props.C76_generators",
    "Verif.Props.C76_rep3_circom",
    "Verif.Props.C76_rep3_libsnark",
    "Verif.Props.C76_shamir_circom",
    "Verif.Props.C76_shamir_libsnark"
   ],
   "note": ""
  },
  {
   "property": "C77",
   "status": "proved",
   "theorems": [
    "Verif.Props.C77_rep3_circom",
    "Verif.Props.C77_rep3_libsnark",
    "Verif.Props.C77_shamir_circom",
    "Verif.Props.C77_shamir_libsnark",
    "Verif.Props.C77_bridge_circom",
    "Verif.Props.C77_bridge_libsnark",
    "Verif.Props.C77_plain_circom",
    "Verif.Props.C77_plain_libsnark",
    "Verif.Props.C77_public_inputs",
    "Verif.Props.C77_witness",
    "Verif.Props.C77_too_large",
    "Verif.Props.C77_no_inputs"
   ],
   "note": ""
  },
  {
   "property": "C78",
   "status": "proved",
   "theorems": [
    "Verif.Props.C78_rep3_circom",
    "Verif.Props.C78_rep3_libsnark",
    "Verif.Props.C78_shamir_circom",
    "Verif.Props.C78_shamir_libsnark",
    "Verif.Props.C78_bridge_circom",
    "Verif.Props.C78_bridge_libsnark"
   ],
   "note": "For Circom keys the domain is smaller than the largest one of the field (F18). Group laws, multi-scalar multiplication and bilinearity of the pairing are assumed (modules over the scalar field)."
  },
  {
   "property": "C79",
   "status": "proved",
   "theorems": [
    "Verif.Props.C79_circom",
    "Verif.Props.C79_libsnark"
   ],
   "note": "Perfect zero knowledge between witnesses: a bijection on the random values (r, s). That the parties' joint r and s are uniform is not part of it."
  },
  {
   "property": "C80",
   "status": "proved",
   "theorems": [
    "Verif.Props.C80_compare",
    "Verif.Props.C80_division",
    "Verif.Props.C80_division_total",
    "Verif.Props.C80_sqrt",
    "Verif.Props.C80_num2bits"
   ],
   "note": ""
  },
  {
   "property": "C81",
   "status": "partial",
   "theorems": [
    "Verif.Props.C81_binary_partial",
    "Verif.Props.C81_binary_total",
    "Verif.Props.C81_division",
    "Verif.Props.C81_compare_equal"
   ],
   "note": "Partial because the full claim is false of the code: comparisons of a public with an equal secret value are wrong (C81_compare_equal), and some calls panic or are unsupported (finding F21). The calls covered are listed by the executable predicate `supported`."
  },
  {
   "property": "C82",
   "status": "proved",
   "theorems": [
    "Verif.Props.C82_unary",
    "Verif.Props.C82_cmux",
    "Verif.Props.C82_sqrt",
    "Verif.Props.C82_num2bits",
    "Verif.Props.C82_addbits",
    "Verif.Props.C82_reveal"
   ],
   "note": ""
  },
  {
   "property": "C83",
   "status": "proved",
   "theorems": [
    "Verif.Props.C83_plain",
    "Verif.Props.C83_plain_flat",
    "Verif.Props.C83_fuel",
    "Verif.Props.C83_collaborative"
   ],
   "note": ""
  },
  {
   "property": "C84",
   "status": "proved",
   "theorems": [
    "Verif.Props.C84_collaborative",
    "Verif.Props.C84_collaborative_flat"
   ],
   "note": ""
  },
  {
   "property": "C85",
   "status": "proved",
   "theorems": [
    "Verif.Props.C85_plain",
    "Verif.Props.C85_collaborative",
    "Verif.Props.VmDemo.C85_skipped_branch",
    "Verif.Props.VmDemo.C85_untaken_assert",
    "Verif.Props.VmDemo.C85_untaken_division"
   ],
   "note": ""
  },
  {
   "property": "C86",
   "status": "proved",
   "theorems": [
    "Verif.Props.C86_component",
    "Verif.Props.C86_witness"
   ],
   "note": ""
  },
  {
   "property": "C87",
   "status": "proved",
   "theorems": [
    "Verif.Props.C87_isZero",
    "Verif.Props.C87_isZero_constraints",
    "Verif.Props.C87_num2bits",
    "Verif.Props.C87_num2bits_constraints",
    "Verif.Props.C87_addbits",
    "Verif.Props.C87_addbits_constraints",
    "Verif.Props.C87_collaborative"
   ],
   "note": ""
  },
  {
   "property": "C88",
   "status": "proved",
   "theorems": [
    "Verif.Props.C88_readable",
    "Verif.Props.C88_read",
    "Verif.Props.C88_split_ok",
    "Verif.Props.C88_split",
    "Verif.Props.C88_split_shamir_ok",
    "Verif.Props.C88_split_shamir",
    "Verif.Props.C88_merge",
    "Verif.Props.C88_users"
   ],
   "note": "The readers of decimal and hexadecimal numbers (ark-ff, num-bigint) are parameters. Names must not contain `[`, as is the case for circom signals. Maps are iterated in the order of insertion."
  },
  {
   "property": "C89",
   "status": "proved",
   "theorems": [
    "Verif.Props.C89_collaborative",
    "Verif.Props.C89_meaning",
    "Verif.Props.C89_opened",
    "Verif.Props.C89_extra_public_entry"
   ],
   "note": "With `C89_extra_public_entry`: the count includes public entries that the circuit does not have, so another user can have a secret opened (finding F27)."
  },
  {
   "property": "C90",
   "status": "proved",
   "theorems": [
    "Verif.Props.C90_share",
    "Verif.Props.C90_share_plain",
    "Verif.Props.C90_share_shamir",
    "Verif.Props.C90_too_few",
    "Verif.Props.C90_additive",
    "Verif.Props.C90_uncompress",
    "Verif.Props.C90_share_uncompress",
    "Verif.Props.C90_translate",
    "Verif.Props.C90_unbatch",
    "Verif.Props.C90_unbatch_panic",
    "Verif.Props.C90_verify_inputs"
   ],
   "note": "The seeds of the preprocessing and of the dealer are arguments; file formats are not modelled."
  },
  {
   "property": "C91",
   "status": "proved",
   "theorems": [
    "Verif.Props.C91_rep3",
    "Verif.Props.C91_translate",
    "Verif.Props.C91_inputs"
   ],
   "note": "Groth16 with the key of snarkjs (circom reduction). Witness extension and proving have separate generator states, as in the command line tools; the second phase is stated for all states."
  },
  {
   "property": "C92",
   "status": "proved",
   "theorems": [
    "Verif.Props.C92_only_solution",
    "Verif.Props.C92_known",
    "Verif.Props.C92_complete"
   ],
   "note": "Brillig calls and the black box functions other than RANGE, AND and XOR are not modelled. The output is in reversed order, as in the code."
  },
  {
   "property": "C93",
   "status": "proved",
   "theorems": [
    "Verif.Props.C93_rep3",
    "Verif.Props.C93_rep3_no_failure",
    "Verif.Props.C93_rep3_assignment"
   ],
   "note": "Tables with fewer than three entries panic for a secret index (F10), and XOR of secrets needs 2^bits \u2264 p (F21)."
  },
  {
   "property": "C94",
   "status": "partial",
   "theorems": [
    "Verif.Props.C94_satisfied_partial",
    "Verif.Props.C94_no_settled_partial",
    "Verif.Props.C94_constraint_ignored",
    "Verif.Props.C94_satisfied_false",
    "Verif.Props.C94_read_overwrites"
   ],
   "note": "Partial because the full claim is false of the code (C94_satisfied_false, C94_read_overwrites; finding F28). Proved: the result satisfies the program if and only if the unchecked constraints hold."
  },
  {
   "property": "C95",
   "status": "partial",
   "theorems": [
    "Verif.Props.C95_shamir_partial",
    "Verif.Props.C95_shamir_no_failure_partial",
    "Verif.Props.C95_coefficient_false"
   ],
   "note": "Partial because the full claim is false of the code: the coefficient of a product of a public and a shared witness is dropped (C95_coefficient_false, finding F29). Tables, AND and XOR of shares are unimplemented in the driver."
  },
  {
   "property": "C96",
   "status": "proved",
   "theorems": [
    "Verif.Props.C96_accepted",
    "Verif.Props.C96_returns"
   ],
   "note": "The transcript hash is an arbitrary function, the pairing any bilinear map, and the Fourier transforms of ark-poly are modelled by what they compute. The exceptional challenges are those of the run itself: Queries gives what is hashed, and is fixed before the hash function. Domains with fewer than eight points and circuits without public input are excluded (finding F30)."
  },
  {
   "property": "C97",
   "status": "proved",
   "theorems": [
    "Verif.Props.C97_plain",
    "Verif.Props.C97_zero_random"
   ],
   "note": "thread_rng is an arbitrary sequence of field elements. C97_zero_random shows the panic with a zero (finding F31)."
  },
  {
   "property": "C98",
   "status": "proved",
   "theorems": [
    "Verif.Props.C98_rep3"
   ],
   "note": "Forks and draws are followed exactly: MaskZero names the at most 18 n + 6 draws of round 2 that must not be zero. The exceptional challenges are excluded as in C96."
  },
  {
   "property": "C99",
   "status": "proved",
   "theorems": [
    "Verif.Props.C99_shamir",
    "Verif.Props.C99_preprocessing"
   ],
   "note": "Buffered says that the states hold shares of the pairs; C99_preprocessing shows that ShamirPreprocessing::new with domain_size * 222 + 15 gives such states."
  },
  {
   "property": "C100",
   "status": "proved",
   "theorems": [
    "Verif.Props.C100_sound",
    "Verif.Props.C100_key",
    "Verif.Props.C100_circuit",
    "Verif.Props.C100_signals"
   ],
   "note": "Round-by-round soundness for algebraic provers: Lucky gives for each challenge a set that depends only on the messages before it, with bounds on its size (9 n^2, 3 n, 2 n, 4 d + 3 n, 5, 2 values, and d + 1 for the secret of the setup). The wires come from the first message, so this is also extraction of the witness. That no prover can do anything but commit to known polynomials is the usual assumption of the algebraic group model and is not provable here; nor is that a hash function rarely hits the sets. C100_key, C100_circuit and C100_signals connect the circuit of a verification key with the proving key of C96-C99."
  },
  {
   "property": "C101",
   "status": "proved",
   "theorems": [
    "Verif.Honk.C101_extend",
    "Verif.Honk.C101_evaluate",
    "Verif.Honk.C101_evaluate_panics"
   ],
   "note": "extend_from has closed forms for 2, 3 and 4 values and barycentric interpolation otherwise; all four are covered. The condition that the nodes are different field elements holds for every field of more than 8 elements that the code is used with. Panics: F33."
  },
  {
   "property": "C102",
   "status": "proved",
   "theorems": [
    "Verif.Honk.C102_prover",
    "Verif.Honk.C102_verifier",
    "Verif.Honk.C102_degree"
   ],
   "note": "All nine relations. The specification Subrel.value is one formula per subrelation, also used over polynomials for the degree bound."
  },
  {
   "property": "C103",
   "status": "proved",
   "theorems": [
    "Verif.Honk.C103_evaluations",
    "Verif.Honk.C103_complete",
    "Verif.Honk.C103_tidy",
    "Verif.Honk.Demo.C103_rejected"
   ],
   "note": "Without zero knowledge (BATCHED_RELATION_PARTIAL_LENGTH 8); the transcript is an arbitrary function of the univariates sent so far. C103_tidy gives the condition on skipping from a condition on the circuit (rows with z_perm = z_perm_shift are in no copy constraint) and on the challenges (no cancellation); C103_rejected is an honest proof of a satisfied, untidy table that the verifier rejects (F34)."
  },
  {
   "property": "C104",
   "status": "proved",
   "theorems": [
    "Verif.Honk.C104_sound"
   ],
   "note": "Round-by-round: the sets of 27 alphas, 2^d - 1 gate challenges and 7 round challenges are fixed before the challenge is drawn (they are chosen before the transcript function is). That the claimed evaluations are those of committed columns is the job of the opening protocol (Gemini/Shplonk/KZG), which is not modelled."
  },
  {
   "property": "C105",
   "status": "proved",
   "theorems": [
    "Verif.Honk.C105_wires",
    "Verif.Honk.C105_runs",
    "Verif.Honk.C105_complete"
   ],
   "note": "For circuits with at least one row: with no row at all the permutation relations fail at row 0 (the column is 1 where the last Lagrange polynomial is 1)."
  },
  {
   "property": "C106",
   "status": "proved",
   "theorems": [
    "Verif.Honk.C106_sound"
   ],
   "note": "Requires that 0, ..., 5*2^28 + (number of tags) are different in the field and that every tag is below that number, which holds for BN254 (the code separates the columns by 2^28 and offsets tags by it). The sets of exceptional challenges have at most (10 rows)^2 and 5 rows + 4 elements."
  },
  {
   "property": "C107",
   "status": "proved",
   "theorems": [
    "Verif.Honk.C107_complete"
   ],
   "note": "For public indices; the secret-shared indices take another path in the code that is not modelled. The wires in the memory gates are arbitrary."
  },
  {
   "property": "C108",
   "status": "proved",
   "theorems": [
    "Verif.Honk.C108_sound"
   ],
   "note": "The sets of exceptional challenges have at most 3n^2 and 4n elements. The lookup selector is 0 or 1 in every row (it is written by the verifier's preprocessing)."
  },
  {
   "property": "C109",
   "status": "proved",
   "theorems": [
    "Verif.Honk.C109_size",
    "Verif.Honk.C109_sound",
    "Verif.Honk.C109_complete"
   ],
   "note": "That the claimed evaluations are those of committed columns is the job of the opening protocol, which is not modelled."
  },
  {
   "property": "C110",
   "status": "proved",
   "theorems": [
    "Verif.Honk.C110_plain",
    "Verif.Honk.C110_rep3",
    "Verif.Honk.C110_shamir"
   ],
   "note": "That the builder lists the right rows is not modelled (populate_memory_records)."
  },
  {
   "property": "C111",
   "status": "proved",
   "theorems": [
    "Verif.Honk.C111_rep3",
    "Verif.Honk.C111_shamir",
    "Verif.Honk.C111_zero_random"
   ],
   "note": "A zero random mask makes the corresponding inverse silently zero (C111_zero_random, finding F36). Masking and commitments of the columns are not modelled."
  },
  {
   "property": "C112",
   "status": "proved",
   "theorems": [
    "Verif.Honk.C112_rep3",
    "Verif.Honk.C112_shamir",
    "Verif.Honk.C112_zero_denominator"
   ],
   "note": "A zero denominator is an error for the parties and a column for the prover in the clear (C112_zero_denominator, finding F36)."
  },
  {
   "property": "C113",
   "status": "proved",
   "theorems": [
    "Verif.Honk.C113_sound",
    "Verif.Honk.C113_argument",
    "Verif.Honk.C113_cancelling"
   ],
   "note": "Programs of the opcodes AssertZero and RANGE with witness inputs; other opcodes (memory, AND, XOR, black box functions, Brillig outputs) are an error of the model. The rows of the blocks other than arithmetic and delta_range are arbitrary."
  },
  {
   "property": "C114",
   "status": "proved",
   "theorems": [
    "Verif.Honk.C114_circuit",
    "Verif.Honk.C114_length",
    "Verif.Honk.C114_key"
   ],
   "note": "As for C113, programs of AssertZero and RANGE opcodes; the values of shared witnesses are not modelled."
  },
  {
   "property": "C115",
   "status": "proved",
   "theorems": [
    "Verif.Honk.C115_builds",
    "Verif.Honk.C115_execution"
   ],
   "note": "As for C113, programs of AssertZero and RANGE opcodes. The rows of the other blocks and the lookups, which do not come from these opcodes, are assumed to hold. That the translation of the opcodes succeeds is assumed too: C113_cancelling shows that it can panic."
  },
  {
   "property": "C116",
   "status": "proved",
   "theorems": [
    "Verif.Honk.C116_rep3",
    "Verif.Honk.C116_shamir",
    "Verif.Honk.CoSumDemo.C116_differs"
   ],
   "note": "Without zero knowledge, as C103. The transcript is any function from the univariates sent so far to the challenge. C116_differs is a satisfied table on which the plain prover is rejected and the parties are accepted (findings F34, F38)."
  },
  {
   "property": "C117",
   "status": "proved",
   "theorems": [
    "Verif.Honk.C117_complete",
    "Verif.Honk.C117_succeeds",
    "Verif.Honk.C117_decider",
    "Verif.Honk.PcsDemo.C117_wrong"
   ],
   "note": "Completeness, without zero knowledge; that no other values are accepted rests on the commitments being binding and is outside the model. The table must have at least four rows (smaller circuits do not occur). C117_wrong is a run in which a wrong value is rejected."
  },
  {
   "property": "C118",
   "status": "proved",
   "theorems": [
    "Verif.Honk.C118_rep3",
    "Verif.Honk.C118_shamir",
    "Verif.Honk.C118_decider_rep3",
    "Verif.Honk.C118_decider_shamir"
   ],
   "note": "Without zero knowledge. The challenges of the opening are any functions of the sumcheck and of what was sent since. The result of eval_poly is any value that the parallel evaluation can return."
  },
  {
   "property": "C119",
   "status": "proved",
   "theorems": [
    "Verif.Honk.C119_key",
    "Verif.Honk.C119_execution",
    "Verif.Honk.C119_satisfied",
    "Verif.Honk.C119_public"
   ],
   "note": "As for C113, programs of AssertZero and RANGE opcodes. That the instance can be built is a hypothesis, met by the example; C113_cancelling shows that building can panic."
  },
  {
   "property": "C120",
   "status": "proved",
   "theorems": [
    "Verif.Honk.C120_accepted",
    "Verif.Honk.C120_proves"
   ],
   "note": "Completeness, without zero knowledge and memory records. The transcript is any function from the key, the public inputs and what was sent so far to the challenges; the flat encoding of the proof is not modelled. GoodRun lists the challenges that are excluded; the example shows a run that meets it."
  },
  {
   "property": "C121",
   "status": "proved",
   "theorems": [
    "Verif.Honk.C121_rep3",
    "Verif.Honk.C121_shamir"
   ],
   "note": "Without zero knowledge and memory records. The proving key and the shares of the columns are given; how the parties make them from shares of the witness is not part of this claim (for the witness solver see C61 and others). No hypothesis on skipped rows is needed, since the collaborative sumcheck skips nothing that matters (C116). The bound 24 n + 6 on the random values drawn is for n rows."
  },
  {
   "property": "C122",
   "status": "proved",
   "theorems": [
    "Verif.Honk.C122_sound"
   ],
   "note": "Without zero knowledge and memory opcodes. That the claimed values are those of the committed columns is the job of the opening protocol; here it is the premise, see C123 and C124 for algebraic provers. The value of eta is fixed before the columns are, since the fourth wire may depend on it."
  },
  {
   "property": "C123",
   "status": "proved",
   "theorems": [
    "Verif.Honk.C123_opening"
   ],
   "note": "Algebraic prover: that a prover who sends points knows such polynomials, and that they cannot depend on the secret, is the usual idealisation (algebraic group model and hardness of discrete logarithms) and is not proved. Without zero knowledge."
  },
  {
   "property": "C124",
   "status": "partial",
   "theorems": [
    "Verif.Honk.C124_sound_partial"
   ],
   "note": "C122 and C123 combined, with the same idealisation of the prover. Partial: the polynomials of the prover have no more coefficients than the circuit has rows. The reference string may be longer, and then provers who use the further points are not covered: with padding, their columns would have up to 2^25 rows, and C122 is about the rows of the circuit. The hash behind the challenges is not modelled: the challenges are arbitrary functions of everything sent before, and the bad sets are fixed before each of them."
  }
 ]
}