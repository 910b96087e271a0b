{
 "claims": [
  {
   "property": "C01",
   "status": "proved",
   "theorems": [
    "LESS.C01_honest_signature_verifies"
   ],
   "note": ""
  },
  {
   "property": "C02",
   "status": "partial",
   "theorems": [
    "LESS.C02_round_trip_partial",
    "LESS.C02_round_trip",
    "LESS.C02_strict_sets",
    "LESS.C02_open_refuses"
   ],
   "note": "Full round trip for the five parameter sets whose worst-case number of published seeds is below the limit; for category 1 balanced and intermediate the library refuses some of its own signed messages (C02_open_refuses), so the claim is proved under the hypothesis that the count is below the limit."
  },
  {
   "property": "C03",
   "status": "partial",
   "theorems": [
    "LESS.C03_published_below_bound_partial",
    "LESS.C03_strict_sets",
    "LESS.C03_fails_cat1Balanced",
    "LESS.C03_fails_cat1Intermediate"
   ],
   "note": "True for five parameter sets; for category 1 balanced and intermediate a challenge reaching the limit is exhibited and the claim is refuted."
  },
  {
   "property": "C04",
   "status": "proved",
   "theorems": [
    "LESS.C04_layout",
    "LESS.C04_sign_fits"
   ],
   "note": ""
  },
  {
   "property": "C05",
   "status": "proved",
   "theorems": [
    "LESS.C05_keypair_memory_safe",
    "LESS.C05_keygen_memory_safe",
    "LESS.C05_sign_memory_safe"
   ],
   "note": ""
  },
  {
   "property": "C06",
   "status": "proved",
   "theorems": [
    "LESS.C06_verify_memory_safe"
   ],
   "note": ""
  },
  {
   "property": "C07",
   "status": "partial",
   "theorems": [
    "LESS.C07_oob_iff",
    "LESS.C07_fails_one_byte",
    "LESS.C07_sets",
    "LESS.C07_fails_short",
    "LESS.C07_fails_count",
    "LESS.C07_fails_count_zero",
    "LESS.C07_reads_within_partial"
   ],
   "note": "False as stated: crypto_sign_open reads outside the buffer on short inputs (C07_fails_*). Proved for every input whose length covers the layout announced by its last byte; the exact condition is C07_oob_iff."
  },
  {
   "property": "C08",
   "status": "proved",
   "theorems": [
    "LESS.C08_any_key",
    "LESS.C08_malformed_action_rejected"
   ],
   "note": ""
  },
  {
   "property": "C09",
   "status": "proved",
   "theorems": [
    "LESS.C09_any_key",
    "LESS.C09_accept_iff_digest_matches"
   ],
   "note": ""
  },
  {
   "property": "C10",
   "status": "proved",
   "theorems": [
    "LESS.C10_no_transfer_without_collision"
   ],
   "note": ""
  },
  {
   "property": "C11",
   "status": "partial",
   "theorems": [
    "LESS.C11_fails_appended_seed",
    "LESS.C11_appended_differs",
    "LESS.C11_fails_padding_bits",
    "LESS.C11_padding_sets",
    "LESS.C11_single_encoding_partial"
   ],
   "note": "False as stated: unused seeds and padding bits may be changed without changing the verdict (C11_fails_*). Proved up to those two freedoms."
  },
  {
   "property": "C12",
   "status": "proved",
   "theorems": [
    "LESS.C12_extract",
    "LESS.C12_equal_recomputation",
    "LESS.C12_accepted_signatures"
   ],
   "note": ""
  },
  {
   "property": "C13",
   "status": "proved",
   "theorems": [
    "LESS.C13_released_leaves_rebuilt"
   ],
   "note": ""
  },
  {
   "property": "C14",
   "status": "proved",
   "theorems": [
    "LESS.C14_withheld_not_derivable"
   ],
   "note": ""
  },
  {
   "property": "C15",
   "status": "proved",
   "theorems": [
    "LESS.C15_storage_never_overflows",
    "LESS.C15_parameter_sets"
   ],
   "note": ""
  },
  {
   "property": "C16",
   "status": "proved",
   "theorems": [
    "LESS.C16_counts_agree"
   ],
   "note": ""
  },
  {
   "property": "C17",
   "status": "proved",
   "theorems": [
    "LESS.C17_challenge_weight_and_range",
    "LESS.C17_challenge_returns"
   ],
   "note": ""
  },
  {
   "property": "C18",
   "status": "proved",
   "theorems": [
    "LESS.C18_expand_salt_round",
    "LESS.C18_expand_private",
    "LESS.C18_random"
   ],
   "note": ""
  },
  {
   "property": "C19",
   "status": "proved",
   "theorems": [
    "LESS.C19_associative",
    "LESS.C19_identity",
    "LESS.C19_inverse"
   ],
   "note": ""
  },
  {
   "property": "C20",
   "status": "proved",
   "theorems": [
    "LESS.C20_matrix_product",
    "LESS.C20_right_action"
   ],
   "note": ""
  },
  {
   "property": "C21",
   "status": "proved",
   "theorems": [
    "LESS.C21_action_round_trip",
    "LESS.C21_encoding_layout",
    "LESS.C21_decoding_total"
   ],
   "note": ""
  },
  {
   "property": "C22",
   "status": "proved",
   "theorems": [
    "LESS.C22_validity_exact"
   ],
   "note": ""
  },
  {
   "property": "C23",
   "status": "proved",
   "theorems": [
    "LESS.C23_rref_correct"
   ],
   "note": ""
  },
  {
   "property": "C24",
   "status": "proved",
   "theorems": [
    "LESS.C24_rref_canonical",
    "LESS.C24_rref_separates"
   ],
   "note": ""
  },
  {
   "property": "C25",
   "status": "proved",
   "theorems": [
    "LESS.C25_code_round_trip",
    "LESS.C25_code_injective"
   ],
   "note": ""
  },
  {
   "property": "C26",
   "status": "proved",
   "theorems": [
    "LESS.C26_compact_round_trip"
   ],
   "note": ""
  },
  {
   "property": "C27",
   "status": "proved",
   "theorems": [
    "LESS.C27_normalise",
    "LESS.C27_same_iff_multiple"
   ],
   "note": ""
  },
  {
   "property": "C28",
   "status": "proved",
   "theorems": [
    "LESS.C28_sorts",
    "LESS.C28_depends_on_multiset"
   ],
   "note": ""
  },
  {
   "property": "C29",
   "status": "proved",
   "theorems": [
    "LESS.C29_depends_on_code",
    "LESS.C29_verifier_agrees"
   ],
   "note": ""
  },
  {
   "property": "C30",
   "status": "proved",
   "theorems": [
    "LESS.C30_reduction",
    "LESS.C30_inversion",
    "LESS.C30_inversion_zero"
   ],
   "note": ""
  },
  {
   "property": "C31",
   "status": "proved",
   "theorems": [
    "LESS.C31_output_exists",
    "LESS.C31_nonzero_sampler",
    "LESS.C31_element_sampler",
    "LESS.C31_ignores_buffer",
    "LESS.C31_zero_elements_overflow"
   ],
   "note": ""
  },
  {
   "property": "C32",
   "status": "proved",
   "theorems": [
    "LESS.C32_shuffle_bijective",
    "LESS.C32_draws",
    "LESS.C32_every_permutation"
   ],
   "note": ""
  },
  {
   "property": "C33",
   "status": "proved",
   "theorems": [
    "LESS.C33_absorb_split",
    "LESS.C33_reachable",
    "LESS.C33_digest_split"
   ],
   "note": ""
  },
  {
   "property": "C34",
   "status": "proved",
   "theorems": [
    "LESS.C34_squeeze_split",
    "LESS.C34_squeeze_length"
   ],
   "note": ""
  },
  {
   "property": "C35",
   "status": "proved",
   "theorems": [
    "LESS.C35_fips202",
    "LESS.C35_digest",
    "LESS.C35_generator"
   ],
   "note": ""
  },
  {
   "property": "C36",
   "status": "proved",
   "theorems": [
    "LESS.C36_keccak_f"
   ],
   "note": ""
  },
  {
   "property": "C37",
   "status": "proved",
   "theorems": [
    "LESS.C37_one_shot",
    "LESS.C37_squeezeblocks"
   ],
   "note": ""
  },
  {
   "property": "C38",
   "status": "proved",
   "theorems": [
    "LESS.C38_product",
    "LESS.C38_inverse",
    "LESS.C38_vector_reduction",
    "LESS.C38_vector_product",
    "LESS.C38_unreduced_differs"
   ],
   "note": ""
  },
  {
   "property": "C39",
   "status": "proved",
   "theorems": [
    "LESS.C39_rref_same",
    "LESS.C39_rref_correct"
   ],
   "note": ""
  },
  {
   "property": "C40",
   "status": "proved",
   "theorems": [
    "LESS.C40_padding",
    "LESS.C40_product_same",
    "LESS.C40_product_correct"
   ],
   "note": ""
  },
  {
   "property": "C41",
   "status": "proved",
   "theorems": [
    "LESS.C41_keygen_is_reference_run",
    "LESS.C41_sign_is_reference_run",
    "LESS.C41_open_is_reference_run",
    "LESS.C41_same_keys",
    "LESS.C41_same_signatures",
    "LESS.C41_same_verdict",
    "LESS.C41_reference_accepts_optimized",
    "LESS.C41_optimized_accepts_reference"
   ],
   "note": ""
  },
  {
   "property": "C42",
   "status": "proved",
   "theorems": [
    "LESS.C42_comparison_exact",
    "LESS.C42_accesses_fixed"
   ],
   "note": ""
  },
  {
   "property": "C43",
   "status": "proved",
   "theorems": [
    "LESS.C43_parameter_sets_wellformed",
    "LESS.C43_bit_length",
    "LESS.C43_code_bytes",
    "LESS.C43_action_bytes",
    "LESS.C43_script_matches",
    "LESS.C43_script_bounds_worst_case",
    "LESS.C43_script_short_for_powers_of_two"
   ],
   "note": ""
  },
  {
   "property": "C44",
   "status": "partial",
   "theorems": [
    "LESS.C44_every_key",
    "LESS.C44_oob_iff",
    "LESS.C44_oob_only_if",
    "LESS.C44_fails_zero_key",
    "LESS.C44_verify_safe_partial"
   ],
   "note": "False as stated: an all-zero public code makes verification read out of bounds (C44_fails_zero_key). Proved for public keys whose codes have at most N-K dense columns; the exact condition for arbitrary keys is C44_oob_iff (see C61)."
  },
  {
   "property": "C45",
   "status": "proved",
   "theorems": [
    "LESS.C45_history"
   ],
   "note": ""
  },
  {
   "property": "C46",
   "status": "proved",
   "theorems": [
    "LESS.C46_public_key_bound_to_secret"
   ],
   "note": ""
  },
  {
   "property": "C47",
   "status": "proved",
   "theorems": [
    "LESS.C47_any_key",
    "LESS.C47_no_stale_dependence",
    "LESS.C47_keygen_no_stale_dependence",
    "LESS.C47_keygen_total",
    "LESS.C47_sign_total",
    "LESS.C47_verify_no_stale_dependence"
   ],
   "note": ""
  },
  {
   "property": "C48",
   "status": "proved",
   "theorems": [
    "LESS.C48_transcript_injective",
    "LESS.C48_signer",
    "LESS.C48_verifier"
   ],
   "note": ""
  },
  {
   "property": "C49",
   "status": "proved",
   "theorems": [
    "LESS.Kat.C49_counter_increment",
    "LESS.Kat.C49_init",
    "LESS.Kat.C49_randombytes",
    "LESS.Kat.C49_fails_long_request",
    "LESS.Kat.C49_seedexpander_history",
    "LESS.Kat.C49_init_refuses",
    "LESS.Kat.C49_output_is_stream_prefix"
   ],
   "note": ""
  },
  {
   "property": "C50",
   "status": "partial",
   "theorems": [
    "LESS.C50_accesses",
    "LESS.C50_reads_depend_on_data",
    "LESS.C50_locations_fixed_partial"
   ],
   "note": "False as stated for the abstract machine: short-circuit evaluation reads a column starting with zeros more often (C50_reads_depend_on_data). Proved: the exact access sequence, and that the set of locations is fixed."
  },
  {
   "property": "C51",
   "status": "partial",
   "theorems": [
    "LESS.C51_keygen_sign_safe",
    "LESS.C51_fails_unreduced_key",
    "LESS.C51_witness",
    "LESS.C51_verify_safe_partial"
   ],
   "note": "Key generation and signing: proved. Verification: false as stated, a public code containing the 7-bit value 127 makes the table-driven RREF follow a pointer it never set (C51_fails_unreduced_key, C51_witness). Proved for public keys of well-formed codes, which include all honest keys."
  },
  {
   "property": "C52",
   "status": "proved",
   "theorems": [
    "LESS.Kat.C52_find_marker",
    "LESS.Kat.C52_after_first",
    "LESS.Kat.C52_read_hex",
    "LESS.Kat.C52_hex_round_trip",
    "LESS.Kat.C52_fails_zero_length",
    "LESS.Kat.C52_decimal_round_trip",
    "LESS.Kat.C52_files",
    "LESS.Kat.C52_returns",
    "LESS.Kat.C52_returns_zero",
    "LESS.Kat.C52_reproducible",
    "LESS.Kat.C52_success_at_end"
   ],
   "note": ""
  },
  {
   "property": "C53",
   "status": "proved",
   "theorems": [
    "LESS.Mem.C53_one_shot",
    "LESS.Mem.C53_incremental",
    "LESS.Mem.C53_digest",
    "LESS.Mem.C53_blocks",
    "LESS.Mem.C53_fails_wraparound"
   ],
   "note": ""
  },
  {
   "property": "C54",
   "status": "partial",
   "theorems": [
    "LESS.Mem.C54_fails_long_request",
    "LESS.Mem.C54_fills_partial"
   ],
   "note": "False as stated: the length is truncated to 32 bits, so a request for a multiple of 2^32 bytes writes nothing (C54_fails_long_request). Proved for requests below 2^32 bytes, which all requests of the library are."
  },
  {
   "property": "C55",
   "status": "proved",
   "theorems": [
    "LESS.C55_any_key",
    "LESS.C55_open_result"
   ],
   "note": ""
  },
  {
   "property": "C56",
   "status": "partial",
   "theorems": [
    "LESS.C56_fails_unverified_message",
    "LESS.C56_verdict_partial"
   ],
   "note": "False as stated: the message and its length are stored before verification; from any signed message one can make an input for which crypto_sign_open returns -1 and has stored an arbitrary message (C56_fails_unverified_message). Proved: what is stored with result 0 is the message the accepted signature is for."
  },
  {
   "property": "C57",
   "status": "proved",
   "theorems": [
    "LESS.C57_signature",
    "LESS.C57_simulation",
    "LESS.C57_equal_counts",
    "LESS.C57_secrets_alike",
    "LESS.C57_transcript",
    "LESS.C57_transcript_counts"
   ],
   "note": ""
  },
  {
   "property": "C58",
   "status": "proved",
   "theorems": [
    "LESS.C58_words",
    "LESS.C58_elements",
    "LESS.C58_nonzero",
    "LESS.C58_all_possible"
   ],
   "note": ""
  },
  {
   "property": "C59",
   "status": "proved",
   "theorems": [
    "LESS.C59_words",
    "LESS.C59_challenges",
    "LESS.C59_parameter_sets",
    "LESS.C59_all_possible"
   ],
   "note": ""
  },
  {
   "property": "C60",
   "status": "partial",
   "theorems": [
    "LESS.C60_frequency",
    "LESS.C60_close_partial",
    "LESS.C60_parameter_sets_partial",
    "LESS.C60_fails_exact"
   ],
   "note": "False as stated: 32-bit words are reduced modulo N-i, so permutations are not exactly equally frequent (C60_fails_exact, for every N >= 3). Proved: the exact frequency of every permutation, and that any two differ by at most one part in ten thousand in the seven parameter sets."
  },
  {
   "property": "C61",
   "status": "proved",
   "theorems": [
    "LESS.C61_verify_outcome",
    "LESS.C61_open_outcome",
    "LESS.C61_parameter_sets"
   ],
   "note": ""
  },
  {
   "property": "C62",
   "status": "proved",
   "theorems": [
    "LESS.C62_count",
    "LESS.C62_parameter_sets",
    "LESS.C62_guess"
   ],
   "note": ""
  },
  {
   "property": "C63",
   "status": "proved",
   "theorems": [
    "LESS.C63_soundness",
    "LESS.C63_parameter_sets",
    "LESS.C63_honest_prover"
   ],
   "note": ""
  },
  {
   "property": "C64",
   "status": "proved",
   "theorems": [
    "LESS.C64_elements",
    "LESS.C64_nonzero",
    "LESS.C64_challenges",
    "LESS.C64_parameter_sets",
    "LESS.C64_no_bound"
   ],
   "note": ""
  },
  {
   "property": "C65",
   "status": "proved",
   "theorems": [
    "LESS.C65_stretches",
    "LESS.C65_apart",
    "LESS.C65_reuse_reveals"
   ],
   "note": ""
  },
  {
   "property": "C66",
   "status": "partial",
   "theorems": [
    "LESS.C66_alone_keygen",
    "LESS.C66_alone_sign",
    "LESS.C66_locked_partial",
    "LESS.C66_locked_no_deadlock",
    "LESS.C66_fails_same_key",
    "LESS.C66_fails_shared_randomness",
    "LESS.C66_fails_reveals",
    "LESS.C66_fails_bounds"
   ],
   "note": "False as stated: the generator is an unprotected global. Two key generations in lockstep give the same key (C66_fails_same_key), two signatures share their ephemeral seed and salt and so give away key material (C66_fails_shared_randomness, C66_fails_reveals), and the position can wrap around so that a call reads behind the generator state (C66_fails_bounds). Proved: the whole claim if a lock around randombytes keeps calls from being inside it at the same time (C66_locked_partial, C66_locked_no_deadlock), and that a call alone is the sequential function."
  },
  {
   "property": "C67",
   "status": "partial",
   "theorems": [
    "LESS.C67_fails_padding",
    "LESS.C67_fails_unused_code",
    "LESS.C67_fails_unreduced",
    "LESS.C67_equivalent_codes_partial"
   ],
   "note": "False as stated: the hashed string does not contain the public key, and its encoding has freedom. In categories 1 and 5 every key has a twin one bit away with identical behaviour on all inputs (C67_fails_padding), a zero entry may be replaced by 127 (C67_fails_unreduced), and codes the challenge does not use may be replaced by anything (C67_fails_unused_code). Proved: if a signature is accepted under two keys, then the messages agree and an explicit monomial carries each code used in the one key to that of the other, unless two explicit strings are a SHA-3 collision (C67_equivalent_codes_partial)."
  },
  {
   "property": "C68",
   "status": "proved",
   "theorems": [
    "LESS.C68_forks",
    "LESS.C68_forger",
    "LESS.C68_game_is_verification",
    "LESS.C68_owner",
    "LESS.C68_owner_wins"
   ],
   "note": ""
  },
  {
   "property": "C69",
   "status": "partial",
   "theorems": [
    "LESS.C69_states_differ",
    "LESS.C69_fails_unseeded",
    "LESS.C69_unseeded_bytes",
    "LESS.C69_seeded_partial"
   ],
   "note": "False as stated: nothing checks that the generator was seeded, and its initial state is all zero. In every process that forgets to seed it, crypto_sign_keypair returns the same key, whose secret is the start of Keccak-f of zero (C69_fails_unseeded, C69_unseeded_bytes); the test program of the project runs in that state. Proved: with seeding, equal keys mean equal SHAKE output of the seeds, and generators with different seeds are never in the same state after equally many bytes (C69_states_differ)."
  },
  {
   "property": "C70",
   "status": "partial",
   "theorems": [
    "LESS.C70_inverses",
    "LESS.C70_monomials",
    "LESS.C70_matrix_by_monomial",
    "LESS.C70_compact_form",
    "LESS.C70_byte_form",
    "LESS.C70_action_form",
    "LESS.C70_elimination",
    "LESS.C70_normal_forms",
    "LESS.C70_sign_verify",
    "LESS.C70_multiple_partial",
    "LESS.C70_multiple",
    "LESS.C70_known_answer_partial",
    "LESS.C70_known_answer"
   ],
   "note": "Proved for all nine test functions; the two that go through the NIST API return -1 only when a signature reaches the maximal number of published seeds, which is possible only in category 1 balanced and intermediate (the reason is C02/C03). For the other five sets they always return 0."
  },
  {
   "property": "C71",
   "status": "partial",
   "theorems": [
    "LESS.C71_sign_partial",
    "LESS.C71_fails_sign",
    "LESS.C71_open_partial",
    "LESS.C71_fails_open"
   ],
   "note": "False as stated: for overlapping positions the salt is written into the message before it is hashed, or the message is copied over the salt before verification, so that honest signed messages are refused (C71_fails_sign, C71_fails_open, up to an explicit collision). Proved: equal results if m = sm, if the buffers are disjoint, and for signing also if the message begins behind the place of the salt."
  },
  {
   "property": "C72",
   "status": "partial",
   "theorems": [
    "LESS.C72_expanded",
    "LESS.C72_one_signature_partial",
    "LESS.C72_signatures_apart",
    "LESS.C72_fails_nodes"
   ],
   "note": "False as stated: the index of the node, which the comment in seedtree.c announces, is not part of the expanded string, so equal seeds in two nodes have equal children (C72_fails_nodes). Proved: rounds are separated from each other and from nodes, two nodes expand the same string only if their seeds are equal, and signatures with different salts share no expanded string."
  },
  {
   "property": "C73",
   "status": "partial",
   "theorems": [
    "LESS.C73_fails_keygen",
    "LESS.C73_fails_sign",
    "LESS.C73_record_exists",
    "LESS.C73_response_record_exists",
    "LESS.C73_coefficients_hidden_partial",
    "LESS.C73_compose_coefficients_hidden_partial",
    "LESS.C73_linear_recovery"
   ],
   "note": "False as stated: the indices written while a private monomial is inverted (key generation) or composed (signing) are its permutation (C73_fails_keygen, C73_fails_sign), after which the coefficients solve linear equations in public data (C73_linear_recovery). Proved: the coefficients, the codes and old memory contents do not show in these accesses. Only the accesses of monomial_mat_inv, generator_monomial_mul and monomial_compose_action are recorded."
  },
  {
   "property": "C74",
   "status": "partial",
   "theorems": [
    "LESS.C74_generator",
    "LESS.C74_monomial",
    "LESS.C74_rref",
    "LESS.C74_identifies",
    "LESS.C74_square",
    "LESS.C74_expanded",
    "LESS.C74_fails_expanded"
   ],
   "note": "False as stated for the expanded form: monomial_mat_print_exp_name prints the transpose of the matrix with which generator_monomial_mul multiplies (C74_fails_expanded). Proved: every printed text contains exactly the entries in order, and determines the object (C74_expanded says which matrix the expanded form shows)."
  },
  {
   "property": "C75",
   "status": "partial",
   "theorems": [
    "LESS.C75_statistics",
    "LESS.C75_elimination",
    "LESS.C75_fails_elimination",
    "LESS.C75_speed",
    "LESS.C75_program"
   ],
   "note": "False as stated for the elimination: all measured eliminations but the first work on a matrix which is already in reduced form (C75_fails_elimination). Proved: the printed numbers are average and sample variance of all measurements (exact arithmetic, square root not taken), nothing leaves its buffer, and the verdict is always functional."
  },
  {
   "property": "C76",
   "status": "partial",
   "theorems": [
    "LESS.C76_upper_bound_partial",
    "LESS.C76_fails_power_of_two",
    "LESS.C76_constants",
    "LESS.C76_parameter_sets",
    "LESS.C76_overflow"
   ],
   "note": "False as stated: for every number of rounds that is a power of two and every weight the library publishes one seed more than the script allows for some set of withheld rounds (C76_fails_power_of_two), and such a parameter set would write behind the seed storage (C76_overflow). Proved: the bound for every other number of rounds below 65536, every weight and every seed length, and that the constants of all parameter sets are the printed numbers."
  },
  {
   "property": "C77",
   "status": "partial",
   "theorems": [
    "LESS.C77_fails_verify",
    "LESS.C77_fails_program",
    "LESS.C77_sign",
    "LESS.C77_keygen"
   ],
   "note": "False as stated for verification: the program never makes a signature, so every measured call is a rejection that happens before the message is read (C77_fails_verify, C77_fails_program). Proved: the measured signatures are all accepted, the measured key pairs all match, and none of the programs leaves its buffers."
  },
  {
   "property": "C78",
   "status": "partial",
   "theorems": [
    "LESS.C78_24rounds",
    "LESS.C78_12rounds",
    "LESS.C78_rounds",
    "LESS.C78_fails_zero_rounds",
    "LESS.C78_same_as_portable",
    "LESS.C78_fails_standard_order",
    "LESS.C78_order"
   ],
   "note": "False as stated in two ways: the code keeps the lanes in its own order, so that the disabled call, which passes the standard order, computes something else already on the zero state (C78_fails_standard_order), and with 0 rounds it reads behind its table (C78_fails_zero_rounds). Proved for all states: with the lanes in its own order the functions compute Keccak-f, the last 12 rounds, and the last 1 to 24 rounds, and agree with the portable permutation up to the order."
  },
  {
   "property": "C79",
   "status": "partial",
   "theorems": [
    "LESS.C79_bytes",
    "LESS.C79_initialize",
    "LESS.C79_add_byte",
    "LESS.C79_add_bytes",
    "LESS.C79_overwrite_bytes",
    "LESS.C79_overwrite_with_zeroes",
    "LESS.C79_extract_bytes",
    "LESS.C79_extract_and_add",
    "LESS.C79_fails_range",
    "LESS.C79_fails_overlap"
   ],
   "note": "False as stated in two ways: a range that does not lie in the state makes the functions read behind their table (C79_fails_range), and ExtractAndAddBytes with an output that begins inside of its input reads bytes it has already written (C79_fails_overlap). Proved for all states, data and ranges within the state, and for all other positions of input and output."
  },
  {
   "property": "C80",
   "status": "partial",
   "theorems": [
    "LESS.C80_same_bits",
    "LESS.C80_add_bytes",
    "LESS.C80_absorb",
    "LESS.C80_absorb_12rounds",
    "LESS.C80_sponge",
    "LESS.C80_fails_lane_count"
   ],
   "note": "False as stated for numbers of lanes other than 1 to 25: with 0, and with more than 25 and data for them, the functions do not return (C80_fails_lane_count). Proved for 1 to 25 lanes, all states, all data."
  },
  {
   "property": "C81",
   "status": "proved",
   "theorems": [
    "LESS.C81_keys",
    "LESS.C81_chosen_messages",
    "LESS.C81_signer",
    "LESS.C81_no_signatures",
    "LESS.C81_owner"
   ],
   "note": ""
  },
  {
   "property": "C82",
   "status": "proved",
   "theorems": [
    "LESS.C82_two_runs",
    "LESS.C82_rewinding",
    "LESS.C82_chance",
    "LESS.C82_questions",
    "LESS.C82_owner"
   ],
   "note": ""
  },
  {
   "property": "C83",
   "status": "proved",
   "theorems": [
    "LESS.C83_hidden_rounds",
    "LESS.C83_seed_not_found",
    "LESS.C83_signature"
   ],
   "note": ""
  },
  {
   "property": "C84",
   "status": "partial",
   "theorems": [
    "LESS.C84_little_endian",
    "LESS.C84_same_order_partial",
    "LESS.C84_expansions",
    "LESS.C84_fails_verify",
    "LESS.C84_fails_keys"
   ],
   "note": "False as stated: a signature made on a little-endian machine is refused by a big-endian one (C84_fails_verify), and the same random bytes lead to different public keys (C84_fails_keys). Proved: on machines of one byte order, whichever it is, honest signatures are accepted and all derived matrices and challenges are well formed."
  },
  {
   "property": "C85",
   "status": "partial",
   "theorems": [
    "LESS.C85_permute2",
    "LESS.C85_permute",
    "LESS.C85_fails_permute2",
    "LESS.C85_shift",
    "LESS.C85_shuffle",
    "LESS.C85_reduce8",
    "LESS.C85_reduce_rows",
    "LESS.C85_reduce16_partial",
    "LESS.C85_fails_reduce16",
    "LESS.C85_fails_reduce8",
    "LESS.C85_bytes"
   ],
   "note": "False as stated: permutations, shifts and shuffles differ between the instruction sets for some selectors, lanes and indices, the 16-bit reduction does nothing on NEON, the 8-bit ones are wrong for 254 and 255 (C85_fails_permute2, C85_fails_reduce16, C85_fails_reduce8). Proved: for permutation, shift, shuffle and the 8-bit reductions the exact set of arguments for which the claim holds; for the 16-bit reduction on AVX2 that it holds up to 16509 and fails at 16510."
  },
  {
   "property": "C86",
   "status": "partial",
   "theorems": [
    "LESS.C86_product_over_first",
    "LESS.C86_product_over_second",
    "LESS.C86_inverse_over",
    "LESS.C86_action_over",
    "LESS.C86_generator_over",
    "LESS.C86_fails_overwrite"
   ],
   "note": "False as stated: every one of the operations is wrong for some argument with every parameter set (C86_fails_overwrite). Proved: for each operation the exact arguments for which overwriting is right, for all valid matrices. For the generator matrix the condition is for all generator matrices at once, not for each one."
  },
  {
   "property": "C87",
   "status": "proved",
   "theorems": [
    "LESS.C87_same",
    "LESS.C87_bounds",
    "LESS.C87_in_order",
    "LESS.C87_attained"
   ],
   "note": ""
  },
  {
   "property": "C88",
   "status": "partial",
   "theorems": [
    "LESS.C88_barrett_partial",
    "LESS.C88_fails_barrett",
    "LESS.C88_barrett_products",
    "LESS.C88_fails_barrett_once",
    "LESS.C88_mersenne",
    "LESS.C88_mersenne_value",
    "LESS.C88_fails_mersenne"
   ],
   "note": "False as stated: the Mersenne reduction never returns for nonzero multiples of 127, which every elimination step produces, and Barrett is wrong from 65152 on (C88_fails_*). Proved: Barrett is right below 65152, so for all products of bytes, without the marked subtraction for all products of 7-bit numbers; the exact arguments for which the Mersenne loop ends, with the right value."
  },
  {
   "property": "C89",
   "status": "proved",
   "theorems": [
    "LESS.C89_sign",
    "LESS.C89_open",
    "LESS.C89_sign_optimized",
    "LESS.C89_open_optimized",
    "LESS.C89_rank"
   ],
   "note": ""
  },
  {
   "property": "C90",
   "status": "proved",
   "theorems": [
    "LESS.C90_same",
    "LESS.C90_bounds",
    "LESS.C90_accepted",
    "LESS.C90_hostile"
   ],
   "note": ""
  },
  {
   "property": "C91",
   "status": "proved",
   "theorems": [
    "LESS.C91_distribution",
    "LESS.C91_balanced",
    "LESS.C91_intermediate",
    "LESS.C91_others",
    "LESS.C91_words",
    "LESS.C91_rate_intermediate",
    "LESS.C91_rate_balanced",
    "LESS.C91_refused_iff"
   ],
   "note": ""
  },
  {
   "property": "C92",
   "status": "proved",
   "theorems": [
    "LESS.C92_least",
    "LESS.C92_lengths",
    "LESS.C92_largest",
    "LESS.C92_reached",
    "LESS.C92_total",
    "LESS.C92_words",
    "LESS.C92_average",
    "LESS.C92_table"
   ],
   "note": ""
  },
  {
   "property": "C93",
   "status": "partial",
   "theorems": [
    "LESS.Mem.C93_safe_partial",
    "LESS.Mem.C93_reuse",
    "LESS.Mem.C93_fails_early_squeeze",
    "LESS.Mem.C93_fails_finalize_twice"
   ],
   "note": "False as stated for the last part: squeezing before finalize hands out bytes of the absorbed message unchanged (C93_fails_early_squeeze), and finalizing twice on a block boundary undoes the padding (C93_fails_finalize_twice). Proved: memory safety, termination, frame and position for every sequence of calls (C93_safe_partial), and that initialising again forgets everything (C93_reuse)."
  },
  {
   "property": "C94",
   "status": "proved",
   "theorems": [
    "LESS.C94_same",
    "LESS.C94_bounds",
    "LESS.C94_independent"
   ],
   "note": ""
  },
  {
   "property": "C95",
   "status": "partial",
   "theorems": [
    "LESS.C95_copies_work",
    "LESS.C95_copy_signs",
    "LESS.C95_reseeded_partial",
    "LESS.C95_fails_same_randomness",
    "LESS.C95_fails_reveals",
    "LESS.C95_fails_same_key"
   ],
   "note": "False as stated for copies that do not call initialize_csprng: their next key pairs are the same (C95_fails_same_key), and their next signatures share ephemeral seed and salt whatever the messages (C95_fails_same_randomness), which gives away the secret (C95_fails_reveals). Proved: the copies are safe and their signatures verify (C95_copies_work), where in the output of its generator each signature takes its randomness (C95_copy_signs), and that salts of two copies agree only where the outputs of their generators agree (C95_reseeded_partial)."
  },
  {
   "property": "C96",
   "status": "partial",
   "theorems": [
    "LESS.C96_fails_backtrack",
    "LESS.C96_fails_history",
    "LESS.C96_fails_keys",
    "LESS.C96_fails_sign",
    "LESS.C96_fails_seed",
    "LESS.C96_fails_context",
    "LESS.C96_reseeded_partial"
   ],
   "note": "False as stated: Keccak-f is run backwards (unpermute), so the state of the generator gives all earlier output and the state before it (C96_fails_backtrack, C96_fails_history), hence all private keys and ephemeral seeds of a history (C96_fails_keys), the seed itself (C96_fails_seed), and with a signature the secret maps (C96_fails_sign); the context that key generation and signing leave on the stack gives the private key (C96_fails_context). Proved: seeding the generator again cuts the state off from the past (C96_reseeded_partial)."
  },
  {
   "property": "C97",
   "status": "partial",
   "theorems": [
    "LESS.C97_fails_prefix",
    "LESS.C97_fails_keygen",
    "LESS.C97_fails_signs",
    "LESS.C97_lengths_partial"
   ],
   "note": "False as stated: from one state of the generator all sets of a category make the same private key, and the public key of a set with fewer key pairs is the start of that of a set with more (C97_fails_prefix, C97_fails_keygen); the private key signs for the smaller set, and the signed messages open under the first bytes of its public key (C97_fails_signs). Proved: the public keys of the seven sets have seven different lengths (C97_lengths_partial)."
  },
  {
   "property": "C98",
   "status": "proved",
   "theorems": [
    "LESS.C98_same",
    "LESS.C98_moments",
    "LESS.C98_same_sign",
    "LESS.C98_buffer",
    "LESS.C98_retry",
    "LESS.C98_record"
   ],
   "note": ""
  },
  {
   "property": "C99",
   "status": "partial",
   "theorems": [
    "LESS.C99_same",
    "LESS.C99_moments_partial",
    "LESS.C99_fails_pair",
    "LESS.C99_retry",
    "LESS.C99_record"
   ],
   "note": "False as stated: the keys are written in place, field by field, the private key first, so there is a moment at which the buffers hold the new private key and the old public key (C99_fails_pair). Proved: the exact list of moments, at each of which every field is the old or the new one (C99_moments_partial), and the claim on the random bytes of the next call (C99_retry)."
  },
  {
   "property": "C100",
   "status": "partial",
   "theorems": [
    "LESS.C100_same",
    "LESS.C100_fails_flags",
    "LESS.C100_fails_one",
    "LESS.C100_fails_sets",
    "LESS.C100_same_challenge",
    "LESS.C100_fails_bounds",
    "LESS.C100_fails_oob",
    "LESS.C100_withheld_partial",
    "LESS.C100_returns_iff",
    "LESS.C100_challenge_partial",
    "LESS.C100_fails_moved"
   ],
   "note": "False as stated: if the flag of one round with a response is lost between the loop that sets it and the call that reads it, the call returns as usual, and the signature holds the ephemeral seed of the round beside its response, which give the secret map (C100_fails_flags, C100_fails_one; for every parameter set and every such round C100_fails_sets); if an entry of the challenge becomes other than 0 after the seeds were chosen, the call accesses memory outside the array of the responses (C100_fails_bounds, C100_fails_oob), and if another entry becomes 0 at the same time it returns and shows the secret map (C100_fails_moved). Proved: flags that are set by mistake show nothing more (C100_withheld_partial); entries of the challenge that stay 0, whatever the others become, show no other seeds (C100_challenge_partial); the call returns exactly if there is room for the responses (C100_returns_iff). Disturbances of other variables are not modelled."
  }
 ]
}