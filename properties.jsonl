{"id": "C01", "title": "Every honest signature verifies", "statement": "If LESS_keygen produced (sk,pk) and LESS_sign(sk,m) produced sig, then LESS_verify(pk,m,sig) returns 1. Verification needs no more rejection-sampling iterations than key generation and signing needed, and performs no out-of-bounds access on the way.", "quantifier": "all seven parameter sets, all states of the random generator at key generation and at signing, all messages of any length, all prior contents of the output buffers", "why_tests_cant": "A test signs a handful of messages; the claim ranges over every seed, challenge and message, including rare challenges, degenerate codes (zero columns) and information sets.", "anchors": ["Reference_Implementation/lib/LESS.c:LESS_keygen", "Reference_Implementation/lib/LESS.c:LESS_sign", "Reference_Implementation/lib/LESS.c:LESS_verify"]}
{"id": "C02", "title": "crypto_sign_open recovers what crypto_sign signed", "statement": "After crypto_sign(sm,&smlen,m,mlen,sk), crypto_sign_open(m',&mlen',sm,smlen,pk) returns 0, with mlen'=mlen and m'=m.", "quantifier": "all parameter sets, keys, messages, random states", "why_tests_cant": "The failure case (a signature publishing exactly MAX_PUBLISHED_SEEDS seeds) has astronomically low probability and no test hits it.", "anchors": ["Reference_Implementation/lib/sign.c:crypto_sign", "Reference_Implementation/lib/sign.c:crypto_sign_open"]}
{"id": "C03", "title": "An honest signature never publishes as many seeds as the verifier refuses", "statement": "The number of seeds LESS_sign publishes is strictly below the bound MAX_PUBLISHED_SEEDS from which crypto_sign_open on rejects outright.", "quantifier": "all weight-W challenge strings, all parameter sets", "why_tests_cant": "The extreme challenge strings are a vanishing fraction of all challenge strings; sampling never reaches the boundary.", "anchors": ["Reference_Implementation/lib/sign.c:crypto_sign_open", "Reference_Implementation/lib/seedtree.c:seed_tree_path", "Reference_Implementation/include/parameters.h:MAX_PUBLISHED_SEEDS"]}
{"id": "C04", "title": "Layout and length of a signed message", "statement": "crypto_sign writes the message unchanged as the first mlen bytes of sm, reports smlen = mlen + LESS_CRYPTO_BYTES(n) where n is the number of published seeds, stores n in the last byte sm[smlen-1], and never needs more than mlen + sizeof(sign_t) bytes.", "quantifier": "all messages, keys and random states", "why_tests_cant": "Length depends on the challenge; tests see only a few of the possible values of n.", "anchors": ["Reference_Implementation/lib/sign.c:crypto_sign", "Reference_Implementation/include/parameters.h:LESS_CRYPTO_BYTES", "Reference_Implementation/include/LESS.h:sign_t"]}
{"id": "C05", "title": "Key generation and signing never access memory out of bounds", "statement": "Every array index formed in LESS_keygen and LESS_sign, and in everything they call, lies inside the array.", "quantifier": "all random states, messages and prior buffer contents", "why_tests_cant": "An index error may only show for one permutation, challenge or pivot pattern out of a huge number.", "anchors": ["Reference_Implementation/lib/LESS.c", "Reference_Implementation/lib/codes.c", "Reference_Implementation/lib/monomial.c", "Reference_Implementation/lib/seedtree.c"]}
{"id": "C06", "title": "LESS_verify is memory-safe on adversarial signatures", "statement": "For a public key produced by LESS_keygen, LESS_verify accesses nothing out of bounds whatever the contents of the sign_t structure and whatever the message.", "quantifier": "all 2^(8*sizeof(sign_t)) signature contents, all messages, all honest keys", "why_tests_cant": "Adversarial inputs are chosen, not sampled: fuzzing cannot cover the space.", "anchors": ["Reference_Implementation/lib/LESS.c:LESS_verify", "Reference_Implementation/lib/codes.c:apply_action_to_G", "Reference_Implementation/lib/monomial.c:is_monom_action_valid"]}
{"id": "C07", "title": "crypto_sign_open reads only the smlen bytes it was given", "statement": "crypto_sign_open(m,&mlen,sm,smlen,pk) never reads beyond sm[smlen-1], whatever the smlen bytes are.", "quantifier": "all byte strings sm of any length", "why_tests_cant": "Requires malformed lengths or a count byte inconsistent with the challenge; tests only use honest signatures.", "anchors": ["Reference_Implementation/lib/sign.c:crypto_sign_open", "Reference_Implementation/lib/seedtree.c:rebuild_seed_tree_leaves"]}
{"id": "C08", "title": "Malformed monomial actions are rejected", "statement": "If a response that verification decodes has a coefficient equal to 0 or at least Q, a column index at least N, or a repeated column index, LESS_verify returns 0.", "quantifier": "all public keys made by keygen, all messages, all signature contents", "why_tests_cant": "Needs every malformed encoding, not the samples a test picks.", "anchors": ["Reference_Implementation/lib/LESS.c:LESS_verify", "Reference_Implementation/lib/monomial.c:is_monom_action_valid"]}
{"id": "C09", "title": "LESS_verify accepts exactly when the recomputed digest matches", "statement": "LESS_verify returns 0 or 1, and returns 1 iff every decoded response is a valid monomial action and the digest stored in the signature equals SHA3 of the T recomputed commitments, the message and the salt, in that order.", "quantifier": "all honest keys, messages and signature contents", "why_tests_cant": "An equivalence over all inputs; tests see acceptances and a few rejections.", "anchors": ["Reference_Implementation/lib/LESS.c:LESS_verify", "Reference_Implementation/lib/LESS.c:timing_safe_memcmp"]}
{"id": "C10", "title": "A signature does not transfer to another message without a SHA-3 collision", "statement": "If the same signature is accepted under the same public key for two different messages, then the two byte strings hashed by the two verifications are different and have the same SHA3 digest.", "quantifier": "all honest keys, signatures and pairs of distinct messages", "why_tests_cant": "A statement about all pairs of messages; no test can exhibit the absence of transfer.", "anchors": ["Reference_Implementation/lib/LESS.c:LESS_verify"]}
{"id": "C11", "title": "A signature has a single accepted encoding", "statement": "If crypto_sign_open accepts sm, then no other byte string obtained by changing unused bits, or by appending unused seeds, is accepted for the same message and key.", "quantifier": "all accepted signed messages", "why_tests_cant": "Tests check that corrupted signatures fail on a few flips, never that every flip fails.", "anchors": ["Reference_Implementation/lib/monomial.c:expand_to_monom_action", "Reference_Implementation/lib/sign.c:crypto_sign_open"]}
{"id": "C12", "title": "Two answers for one commitment give a linear equivalence between the codes", "statement": "If verification recomputes the same commitment from public code a with a valid action and from public code b with another valid action (or from code 0 with a seed), then codes a and b are monomially (linearly) equivalent, with a witness computable from the two answers.", "quantifier": "all codes, all valid actions", "why_tests_cant": "Special soundness quantifies over all adversarial responses.", "anchors": ["Reference_Implementation/lib/LESS.c:LESS_verify", "Reference_Implementation/lib/codes.c:prepare_digest_input"]}
{"id": "C13", "title": "Published seeds rebuild every released leaf", "statement": "For every index vector, rebuild_seed_tree_leaves applied to what seed_tree_path published, with the same salt, yields for every released index i (flag 0) the same leaf seed that generate_seed_tree_from_root produced.", "quantifier": "all root seeds, salts, index vectors with at least one withheld index, prior tree contents", "why_tests_cant": "2^T index vectors; tests exercise the few arising from random challenges.", "anchors": ["Reference_Implementation/lib/seedtree.c:seed_tree_path", "Reference_Implementation/lib/seedtree.c:rebuild_seed_tree_leaves", "Reference_Implementation/lib/seedtree.c:generate_seed_tree_from_root"]}
{"id": "C14", "title": "Published seeds never include an ancestor of a withheld leaf", "statement": "No node published by seed_tree_path is a withheld leaf or an ancestor of one, so a withheld ephemeral seed is not derivable by tree expansion from the published ones; and every released leaf is covered by exactly one published node.", "quantifier": "all index vectors", "why_tests_cant": "Security-critical for every challenge; a violating challenge need not appear in tests.", "anchors": ["Reference_Implementation/lib/seedtree.c:compute_seeds_to_publish", "Reference_Implementation/lib/seedtree.c:seed_tree_path"]}
{"id": "C15", "title": "The seed storage of a signature never overflows", "statement": "For every challenge with W non-zero positions, seed_tree_path publishes at most MAX_PUBLISHED_SEEDS seeds, so seeds plus the count byte fit in seed_storage and the count fits in one byte.", "quantifier": "all weight-W index vectors, all parameter sets", "why_tests_cant": "Worst-case combinatorial bound over binomial(T,W) challenges.", "anchors": ["Reference_Implementation/lib/seedtree.c:seed_tree_path", "Reference_Implementation/include/parameters.h:SEED_TREE_MAX_PUBLISHED_BYTES", "Utilities/Parameter_Generation_Scripts/seed_tree_param_computer.py"]}
{"id": "C16", "title": "Verifier and signer agree on the number of seeds", "statement": "rebuild_seed_tree_leaves consumes exactly as many stored seeds as seed_tree_path published for the same index vector, and reads none beyond them.", "quantifier": "all index vectors with at least one withheld index", "why_tests_cant": "Depends on the index vector; exponentially many.", "anchors": ["Reference_Implementation/lib/seedtree.c:rebuild_seed_tree_leaves", "Reference_Implementation/lib/seedtree.c:seed_tree_path"]}
{"id": "C17", "title": "The challenge has fixed weight W and valid key indices", "statement": "When expand_digest_to_fixed_weight returns, exactly W of the T entries are non-zero and every entry is below NUM_KEYPAIRS; the result depends on the digest only.", "quantifier": "all digests, all parameter sets", "why_tests_cant": "All 2^(8*HASH_DIGEST_LENGTH) digests.", "anchors": ["Reference_Implementation/lib/utils.c:expand_digest_to_fixed_weight"]}
{"id": "C18", "title": "Seed-expanded monomials are monomial matrices", "statement": "monomial_mat_seed_expand_salt_rnd, monomial_mat_seed_expand_prikey and monomial_mat_rnd always produce a permutation of 0..N-1 and coefficients in 1..Q-1.", "quantifier": "all seeds, salts, round indices and generator states", "why_tests_cant": "All seeds; a bias or duplicate could appear for one in 2^128.", "anchors": ["Reference_Implementation/lib/monomial.c:monomial_mat_seed_expand_salt_rnd", "Reference_Implementation/lib/monomial.c:monomial_mat_seed_expand_prikey", "Reference_Implementation/lib/monomial.c:yt_shuffle_state"]}
{"id": "C19", "title": "Monomial matrices form a group under the library operations", "statement": "monomial_mat_mul is associative with identity monomial_mat_id, and monomial_mat_inv gives a two-sided inverse.", "quantifier": "all monomial matrices", "why_tests_cant": "The group of monomials has 126^N * N! elements.", "anchors": ["Reference_Implementation/lib/monomial.c:monomial_mat_mul", "Reference_Implementation/lib/monomial.c:monomial_mat_inv", "Reference_Implementation/lib/monomial.c:monomial_mat_id"]}
{"id": "C20", "title": "Generator-by-monomial product is the matrix product and a right action", "statement": "generator_monomial_mul(G,Q) is the product of G with the monomial matrix Q over F_127; multiplying by A then B equals multiplying by monomial_mat_mul(A,B); multiplying by Q then by its inverse gives back G.", "quantifier": "all generator matrices and monomials", "why_tests_cant": "All matrices.", "anchors": ["Reference_Implementation/lib/codes.c:generator_monomial_mul", "Reference_Implementation/lib/monomial.c:monomial_mat_mul"]}
{"id": "C21", "title": "Monomial action encoding is lossless", "statement": "expand_to_monom_action(compress_monom_action(a)) = a, for every action with indices below N and coefficients below 128; encoding writes and decoding reads exactly MONO_ACTION_PACKEDBYTES bytes and ignores what the buffer held before.", "quantifier": "all actions, all prior buffer contents, the three category-specific encodings", "why_tests_cant": "126^K * N^K values; the unit test for this is commented out in the repo's main.", "anchors": ["Reference_Implementation/lib/monomial.c:compress_monom_action", "Reference_Implementation/lib/monomial.c:expand_to_monom_action"]}
{"id": "C22", "title": "The validity check is exact", "statement": "is_monom_action_valid returns 1 iff all coefficients are in 1..Q-1 and the column indices are below N and pairwise distinct, and 0 otherwise.", "quantifier": "all contents of a monomial_action_IS_t", "why_tests_cant": "All contents.", "anchors": ["Reference_Implementation/lib/monomial.c:is_monom_action_valid"]}
{"id": "C23", "title": "generator_RREF computes the reduced row echelon form", "statement": "generator_RREF returns 1 iff the K rows are linearly independent over F_127; then the result is in reduced row echelon form, generates the same row space, and is_pivot_column is 1 exactly at the K pivot columns.", "quantifier": "all K x N matrices with entries below Q", "why_tests_cant": "Pivot patterns with skipped columns and row swaps are rare in random tests.", "anchors": ["Reference_Implementation/lib/codes.c:generator_RREF"]}
{"id": "C24", "title": "generator_RREF is canonical", "statement": "Two generator matrices of the same code (same row space) are reduced to the same matrix and the same pivot indicator.", "quantifier": "all pairs of full-rank generators of one code", "why_tests_cant": "Quantifies over all bases of all codes.", "anchors": ["Reference_Implementation/lib/codes.c:generator_RREF"]}
{"id": "C25", "title": "Public-key code encoding is lossless", "statement": "expand_to_rref(compress_rref(G, is_pivot)) = G for every G in reduced row echelon form with pivot flags is_pivot; encoding stays within RREF_MAT_PACKEDBYTES and ignores prior buffer contents.", "quantifier": "all RREF generators of full rank", "why_tests_cant": "127^(K(N-K)) matrices and all pivot sets.", "anchors": ["Reference_Implementation/lib/codes.c:compress_rref", "Reference_Implementation/lib/codes.c:expand_to_rref"]}
{"id": "C26", "title": "Compact RREF form is lossless", "statement": "generator_rref_expand(generator_rref_compact(G,is_pivot)) = G for every full-rank G in RREF.", "quantifier": "all RREF generators", "why_tests_cant": "As above.", "anchors": ["Reference_Implementation/lib/codes.c:generator_rref_compact", "Reference_Implementation/lib/codes.c:generator_rref_expand"]}
{"id": "C27", "title": "Column normalisation removes exactly the scale", "statement": "lex_minimize writes a column proportional to the input column whose first non-zero entry is 1 (or the zero column); two columns normalise to the same result iff each is a non-zero multiple of the other.", "quantifier": "all columns", "why_tests_cant": "All columns of length K over F_127, including all-zero ones.", "anchors": ["Reference_Implementation/lib/codes.c:lex_minimize"]}
{"id": "C28", "title": "lex_sort_cols sorts the columns", "statement": "lex_sort_cols terminates without out-of-bounds access, its result has the same multiset of columns and they are in non-decreasing lexicographic order; hence the result depends only on the multiset of columns.", "quantifier": "all K x (N-K) matrices, including those with repeated columns", "why_tests_cant": "In-place Hoare quicksort with duplicate keys and wrap-around indices: adversarial orders are not sampled.", "anchors": ["Reference_Implementation/lib/codes.c:lex_sort_cols", "Reference_Implementation/lib/codes.c:col_lex_quicksort", "Reference_Implementation/lib/codes.c:Hoare_partition", "Reference_Implementation/lib/codes.c:lex_compare_with_pivot"]}
{"id": "C29", "title": "The commitment depends only on the code and the information set", "statement": "prepare_digest_input gives the same commitment and the same action for any two generators of the same code; and the commitment the verifier recomputes from a public code with the composed action equals the signer's.", "quantifier": "all full-rank generators, all monomials", "why_tests_cant": "Equality of two different computations over all inputs.", "anchors": ["Reference_Implementation/lib/codes.c:prepare_digest_input", "Reference_Implementation/lib/codes.c:apply_action_to_G", "Reference_Implementation/lib/monomial.c:monomial_compose_action"]}
{"id": "C30", "title": "Field reduction and inversion are correct", "statement": "fq_red(x) = x mod 127 for every 16-bit x, and fq_inv(x)*x = 1 mod 127 for every x not divisible by 127, fq_inv(x)=0 otherwise.", "quantifier": "all 65536 inputs of fq_red, all 256 inputs of fq_inv", "why_tests_cant": "The unit test covers inversion only on 1..126 and reduction only indirectly.", "anchors": ["Reference_Implementation/include/fq_arith.h:fq_red", "Reference_Implementation/include/fq_arith.h:fq_inv"]}
{"id": "C31", "title": "Rejection samplers return exactly the accepted stream values, in range", "statement": "Each sampling function fills its buffer with the first num_elements values accepted from the generator's output stream, all within [MIN,MAX], without writing past num_elements, and its result is independent of prior buffer contents.", "quantifier": "all generator states and all positive element counts (asked for zero elements the samplers do write one, C31_zero_elements_overflow)", "why_tests_cant": "All streams.", "anchors": ["Reference_Implementation/include/fq_arith.h:DEF_RAND_STATE", "Reference_Implementation/include/fq_arith.h:DEF_RAND"]}
{"id": "C32", "title": "The shuffle can produce every permutation, each in exactly one way", "statement": "As a function of the reduced draws (draw i in i..N-1), yt_shuffle_state is a bijection onto the permutations of 0..N-1.", "quantifier": "all draw vectors and all permutations of N elements", "why_tests_cant": "N! permutations.", "anchors": ["Reference_Implementation/lib/monomial.c:yt_shuffle_state"]}
{"id": "C33", "title": "Incremental hashing does not depend on how input is split", "statement": "Absorbing a then b gives the same sponge state as absorbing a followed by b in one call.", "quantifier": "all byte strings and all split points, all rates used", "why_tests_cant": "All lengths relative to the block boundary, all splits.", "anchors": ["Reference_Implementation/lib/fips202.c:keccak_inc_absorb"]}
{"id": "C34", "title": "Squeezing does not depend on how output is split", "statement": "Squeezing x bytes then y bytes gives the same bytes as squeezing x+y bytes at once, and leaves the same state.", "quantifier": "all states, all lengths", "why_tests_cant": "All splits.", "anchors": ["Reference_Implementation/lib/fips202.c:keccak_inc_squeeze"]}
{"id": "C35", "title": "SHA-3 and SHAKE follow the FIPS 202 sponge", "statement": "The incremental absorb/finalize/squeeze functions compute the FIPS 202 sponge: domain-separated pad10*1 padding, block-wise xor and permutation, block-wise output.", "quantifier": "all messages and output lengths", "why_tests_cant": "All lengths, including multiples of the rate and rate-1 where padding folds into one byte.", "anchors": ["Reference_Implementation/lib/fips202.c:keccak_inc_absorb", "Reference_Implementation/lib/fips202.c:keccak_inc_finalize", "Reference_Implementation/lib/fips202.c:keccak_inc_squeeze", "Reference_Implementation/lib/fips202.c:sha3_256_inc_finalize"]}
{"id": "C36", "title": "The unrolled permutation is Keccak-f[1600]", "statement": "KeccakF1600_StatePermute computes 24 rounds of theta, rho, pi, chi, iota as in FIPS 202, with round constants equal to those generated by the FIPS 202 LFSR.", "quantifier": "all 2^1600 states", "why_tests_cant": "A wrong lane or rotation may be missed by few vectors only if they are not run; here they are not.", "anchors": ["Reference_Implementation/lib/keccakf1600.c:KeccakF1600_StatePermute"]}
{"id": "C37", "title": "One-shot and incremental hash interfaces agree", "statement": "sha3_256/384/512, shake128/256 one-shot calls equal init+absorb+finalize+squeeze; shake128_absorb followed by shake128_squeezeblocks equals the incremental output.", "quantifier": "all inputs and lengths", "why_tests_cant": "All lengths.", "anchors": ["Reference_Implementation/lib/fips202.c:sha3_256", "Reference_Implementation/lib/fips202.c:shake128_absorb", "Reference_Implementation/lib/fips202.c:shake128_squeezeblocks"]}
{"id": "C38", "title": "Optimized field arithmetic equals the reference", "statement": "br_red(br_mul(a,b)) = fq_red(a*b) for all reduced a,b; the optimized fq_inv equals the reference fq_inv on reduced inputs; the vector reduction W_RED127_ reduces every lane independently.", "quantifier": "all reduced operands, all lane contents", "why_tests_cant": "Cross-lane contamination by 16-bit shifts must be excluded for all neighbours.", "anchors": ["Optimized_Implementation/common/include/fq_arith.h:br_mul", "Optimized_Implementation/common/include/fq_arith.h:br_red", "Optimized_Implementation/common/include/fq_arith.h:fq_inv", "Optimized_Implementation/avx2/include/macro.h:W_RED127_"]}
{"id": "C39", "title": "Optimized RREF equals the reference RREF", "statement": "The table-driven vector generator_RREF of the optimized implementation returns the same value, matrix and pivot flags as the reference one.", "quantifier": "all K x N matrices with reduced entries, any padding contents", "why_tests_cant": "All matrices.", "anchors": ["Optimized_Implementation/common/lib/codes.c:generator_RREF"]}
{"id": "C40", "title": "Optimized generator-by-monomial product equals the reference", "statement": "The vectorised generator_monomial_mul equals the reference one on reduced inputs.", "quantifier": "all matrices and monomials, any padding contents", "why_tests_cant": "All matrices.", "anchors": ["Optimized_Implementation/common/lib/codes.c:generator_monomial_mul"]}
{"id": "C41", "title": "Reference and optimized implementations interoperate", "statement": "For the same generator state, message and keys, both implementations produce the same keys and signatures, and accept the same honest signatures.", "quantifier": "all states, messages, keys", "why_tests_cant": "KAT comparison covers 100 points.", "anchors": ["Reference_Implementation/lib/LESS.c", "Optimized_Implementation/common/lib/LESS.c", "Optimized_Implementation/common/lib/codes.c"]}
{"id": "C42", "title": "Digest comparison is exact and looks at every byte", "statement": "timing_safe_memcmp returns 0 iff the two buffers agree on all bytelen bytes, and the sequence of bytes it examines does not depend on their values.", "quantifier": "all buffers and lengths", "why_tests_cant": "All buffers.", "anchors": ["Reference_Implementation/lib/LESS.c:timing_safe_memcmp"]}
{"id": "C43", "title": "Derived parameters are consistent", "statement": "BITS_TO_REPRESENT is the bit length for all values below 2^16; the macro sizes equal the space the encoders use; SEED_TREE_MAX_PUBLISHED_BYTES equals the parameter script's worst case and bounds the true worst case for every (T,W).", "quantifier": "all values below 2^16; all T, W; the seven parameter sets", "why_tests_cant": "Compile-time constants are never unit tested.", "anchors": ["Reference_Implementation/include/parameters.h", "Utilities/Parameter_Generation_Scripts/seed_tree_param_computer.py"]}
{"id": "C44", "title": "LESS_verify is memory-safe on any public key bytes", "statement": "LESS_verify accesses nothing out of bounds for arbitrary public-key bytes of the right length.", "quantifier": "all public keys", "why_tests_cant": "Requires malformed keys.", "anchors": ["Reference_Implementation/lib/codes.c:expand_to_rref", "Reference_Implementation/lib/LESS.c:LESS_verify"]}
{"id": "C45", "title": "Any history of key generations and signings keeps all signatures valid", "statement": "After any sequence of keygen and sign calls sharing one random generator, every signature produced verifies under the matching public key, in any order of verification.", "quantifier": "all operation sequences, all messages, all initial generator states", "why_tests_cant": "Unbounded histories.", "anchors": ["Reference_Implementation/lib/LESS.c", "Reference_Implementation/lib/rng.c:platform_csprng_state"]}
{"id": "C46", "title": "The public key is bound to the secret monomials", "statement": "Each public code decodes to the reduced row echelon form of G_0 times the inverse of the monomial expanded from the corresponding secret seed; the first component of pk is the seed of G_0 and equals the copy in sk.", "quantifier": "all generator states", "why_tests_cant": "All keys.", "anchors": ["Reference_Implementation/lib/LESS.c:LESS_keygen"]}
{"id": "C47", "title": "Signature bytes do not depend on stale memory", "statement": "The smlen bytes produced by crypto_sign are a function of the secret key, the message and the generator state only, not of the previous contents of the output buffer or of uninitialised locals.", "quantifier": "all previous buffer contents", "why_tests_cant": "Uninitialised-read bugs depend on stack contents.", "anchors": ["Reference_Implementation/lib/LESS.c:LESS_sign", "Reference_Implementation/lib/sign.c:crypto_sign"]}
{"id": "C48", "title": "The hashed transcript is unambiguous", "statement": "The byte string hashed by sign and verify determines the T commitments, the message and the salt.", "quantifier": "all transcripts", "why_tests_cant": "Injectivity over all inputs.", "anchors": ["Reference_Implementation/lib/LESS.c:LESS_sign"]}
{"id": "C49", "title": "The KAT generator's counter and output stream are well-defined", "statement": "The NIST DRBG counter increment is addition of 1 modulo 2^128; a request below 2^31 bytes (longer ones overflow the int index) stores exactly the requested bytes, the beginning of the counter-mode stream of the current state, and then updates the state as CTR_DRBG prescribes; the seed expander's output does not depend on how requests are split and never exceeds the declared maximum length.", "quantifier": "all keys, counters, request sequences", "why_tests_cant": "Counter wrap-around and request splits are not sampled.", "anchors": ["Reference_Implementation/lib/nist/KAT_NIST_rng.c"]}
{"id": "C50", "title": "Normalising a column touches memory independently of the data", "statement": "The normalisation of a column during signing and verification, documented as constant time, performs the same sequence of memory reads and writes whatever the column contains.", "quantifier": "all columns, all matrices, all previous contents", "why_tests_cant": "Access patterns of all inputs; a test observes timing of a few.", "anchors": ["Reference_Implementation/lib/codes.c:lex_minimize"]}
{"id": "C51", "title": "The optimized implementation uses only memory it owns and values it set", "statement": "Key generation, signing and verification of the optimized implementation access nothing out of bounds and follow no pointer they have not set, verification for every public key whose codes decode within bounds.", "quantifier": "all generator states, secret keys, messages, public keys, signatures, contents of uninitialised memory", "why_tests_cant": "The one 7-bit value that is not a field element has to be placed in a crafted key.", "anchors": ["Optimized_Implementation/common/lib/codes.c:generator_RREF", "Optimized_Implementation/common/lib/LESS.c"]}
{"id": "C52", "title": "The test-vector program writes exactly the specified files, reproducibly", "statement": "The program that generates the known-answer files touches no memory out of bounds; its request file is determined by the DRBG seeded with the bytes 0..47; its response file answers the requests in order, the keys and signature of each computed by the API from that request's seed alone; it returns 0 after the last response or -4 right after the first signed message that crypto_sign_open refuses (impossible for five of the seven parameter sets); two executions produce identical files. Searching a marker finds its first occurrence, and a byte string written in hexadecimal is read back unchanged.", "quantifier": "all block ciphers, all contents of uninitialised memory, all files and markers, all byte strings", "why_tests_cant": "The published files show one execution on one machine; parsing must hold for every seed and message.", "anchors": ["Reference_Implementation/lib/nist/PQCgenKAT_sign.c:main", "Reference_Implementation/lib/nist/PQCgenKAT_sign.c:FindMarker", "Reference_Implementation/lib/nist/PQCgenKAT_sign.c:ReadHex", "Reference_Implementation/lib/nist/PQCgenKAT_sign.c:fprintBstr"]}
{"id": "C53", "title": "Hashing reads exactly its input and writes exactly its output", "statement": "The one-shot, incremental and block-wise SHA-3 and SHAKE functions, given any parts of any buffers (each piece at most 2^64-200 bytes) and whatever a context held before initialisation, access nothing outside the input, the output and the context, write every byte of the output and no other, and the output is the FIPS 202 function of the input.", "quantifier": "all buffers, offsets, lengths, numbers of pieces, previous contents of contexts and stack blocks", "why_tests_cant": "Off-by-one reads at block boundaries and wrap-around of 32- and 64-bit lengths are invisible to tests on small aligned buffers.", "anchors": ["Reference_Implementation/lib/fips202.c", "Reference_Implementation/lib/keccakf1600.c", "Reference_Implementation/include/sha3.h"]}
{"id": "C54", "title": "randombytes fills the whole buffer it is asked to fill", "statement": "After seeding the generator from any buffer, every request for random bytes fills the requested part of the caller's buffer completely, changes nothing else, and successive requests return successive bytes of SHAKE of the seed, whatever the lengths.", "quantifier": "all seeds, buffers, request sequences, request lengths of type unsigned long long", "why_tests_cant": "The length passes through a 32-bit parameter; no test asks for 4 GiB.", "anchors": ["Reference_Implementation/include/rng.h:randombytes", "Reference_Implementation/include/rng.h:csprng_randombytes", "Reference_Implementation/include/sha3.h:xof_shake_extract", "Reference_Implementation/lib/rng.c:initialize_csprng"]}
{"id": "C55", "title": "crypto_sign_open returns 0 exactly for a signature that verifies", "statement": "Whenever crypto_sign_open returns, it returns 0 or -1. It returns 0 exactly if the announced number of seeds is below the limit and the signature found at the end of the input (salt, responses, digest, seeds, at the offsets of the format) is accepted for the bytes before it; those bytes are then the message returned, and their number is stored.", "quantifier": "all honest public keys, all inputs of any length and content", "why_tests_cant": "Requires the equivalence for all inputs, including those where bytes of one field are taken for another.", "anchors": ["Reference_Implementation/lib/sign.c:crypto_sign_open", "Reference_Implementation/lib/LESS.c:LESS_verify"]}
{"id": "C56", "title": "No message is handed out unless its signature verifies", "statement": "If crypto_sign_open returns -1, it has stored neither a message nor a message length.", "quantifier": "all honest public keys, all inputs of any length and content", "why_tests_cant": "Tests look at the message only when the result is 0.", "anchors": ["Reference_Implementation/lib/sign.c:crypto_sign_open"]}
{"id": "C57", "title": "A response reveals nothing beyond the public key", "statement": "For every nonzero challenge value the pair (commitment input, published response) of a round, as a function of the ephemeral monomial, takes every value for exactly as many ephemeral monomials as a pair computed from the public key alone without the private monomial. In particular two private keys with the same public key give the same counts, and the pairs in a signature are those the signer computes this way. The same holds for all rounds of a signature together, for every challenge vector.", "quantifier": "all key pairs, all challenge values and challenge vectors, all pairs of commitment input and response, all tuples of them", "why_tests_cant": "A statement about the distribution over all ephemeral monomials; tests see single signatures.", "anchors": ["Reference_Implementation/lib/LESS.c:LESS_sign", "Reference_Implementation/lib/codes.c:prepare_digest_input", "Reference_Implementation/lib/monomial.c:monomial_compose_action"]}
{"id": "C58", "title": "Sampled field elements are uniform", "statement": "The samplers of field elements and of non-zero field elements turn uniform generator output into uniform vectors: the result is a function of the 64-bit words drawn, and among all sequences of any fixed number of words every vector of allowed elements is the result for the same number of sequences, which is positive once there are as many words as elements.", "quantifier": "all vector lengths, all numbers of words, all pairs of vectors, all previous buffer contents", "why_tests_cant": "Equality of frequencies over all 2^(64k) word sequences; statistics on samples do not establish it.", "anchors": ["Reference_Implementation/include/fq_arith.h:DEF_RAND_STATE", "Reference_Implementation/include/fq_arith.h:fq_star_rnd_state_elements", "Reference_Implementation/include/fq_arith.h:rand_range_q_state_elements"]}
{"id": "C59", "title": "Challenges are uniform", "statement": "Expanding a digest turns uniform generator output into a uniform challenge: among all sequences of any fixed number of 16-bit numbers, every vector with W non-zero entries below the number of keys is the challenge for the same number of sequences, which is positive from W numbers on.", "quantifier": "all parameter sets, all numbers of draws, all pairs of challenges", "why_tests_cant": "Soundness depends on every challenge being equally likely; the number of challenges is astronomically large.", "anchors": ["Reference_Implementation/lib/utils.c:expand_digest_to_fixed_weight"]}
{"id": "C60", "title": "Sampled permutations are uniform", "statement": "Among all outputs of the generator, every permutation of the columns is the result of the shuffle for the same number of outputs.", "quantifier": "all parameter sets, all pairs of permutations, all generator outputs", "why_tests_cant": "A bias of one part in 2^24 per draw is invisible in tests.", "anchors": ["Reference_Implementation/lib/monomial.c:yt_shuffle_state"]}
{"id": "C61", "title": "The outcome of verification and opening is determined for every public key", "statement": "With any byte string as public key, LESS_verify returns 1 if the specification accepts and 0 if not, unless under the challenge of the signature a round is answered for a public code with more than N-K unflagged columns before a malformed response is met, in which case it reads out of bounds. crypto_sign_open reads or writes out of bounds exactly if the input is empty, shorter than its last byte announces, longer than the message buffer allows, announces fewer seeds than the challenge requires, or verification does; otherwise it returns what the specification prescribes.", "quantifier": "all byte strings as public key, all messages, signatures and signed messages of any length, all sizes of the message buffer, all contents of uninitialised memory", "why_tests_cant": "An equivalence over all key and signature bytes, including adversarial keys that no test generates.", "anchors": ["Reference_Implementation/lib/sign.c:crypto_sign_open", "Reference_Implementation/lib/LESS.c:LESS_verify", "Reference_Implementation/lib/codes.c:expand_to_rref"]}
{"id": "C62", "title": "A challenge cannot be guessed", "statement": "There are exactly C(T,W)(s-1)^W challenges, s the number of codes of a public key; in every parameter set these are at least 2 to the power of the security level, and whatever challenge is fixed in advance is produced from at most a fraction of 2 to the minus security level of all generator outputs.", "quantifier": "all challenges, all lengths of generator output, all seven parameter sets", "why_tests_cant": "There are more than 2^128 challenges; a test sees a handful of them.", "anchors": ["Reference_Implementation/lib/utils.c:expand_digest_to_fixed_weight", "Reference_Implementation/include/parameters.h"]}
{"id": "C63", "title": "Without the private key only a guessed challenge can be answered", "statement": "If, commitments fixed, some strategy answers the challenge for more than a fraction of 2 to the minus security level of the generator outputs, then it answers two different challenges, and an explicit algorithm computes from its two answers in a round where they differ a monomial carrying one code of the public key to another. The owner of the private key answers all challenges from one set of commitments.", "quantifier": "all strategies (arbitrary functions from challenges to signatures), all commitments, all public keys and salts", "why_tests_cant": "Quantifies over all possible cheating strategies.", "anchors": ["Reference_Implementation/lib/LESS.c:LESS_verify", "Reference_Implementation/lib/LESS.c:LESS_sign", "Reference_Implementation/lib/utils.c:expand_digest_to_fixed_weight"]}
{"id": "C64", "title": "The rejection loops finish", "statement": "The loops that draw field elements, non-zero field elements and challenges until enough are accepted finish for all but an exponentially small part of the generator outputs; in every parameter set 2048 words suffice except for a fraction of 2 to the minus security level.", "quantifier": "all numbers of elements, all lengths of generator output, all seven parameter sets", "why_tests_cant": "A loop without a bound that hangs on one output in 2^128 hangs in no test.", "anchors": ["Reference_Implementation/include/fq_arith.h:DEF_RAND_STATE", "Reference_Implementation/lib/utils.c:expand_digest_to_fixed_weight"]}
{"id": "C65", "title": "No randomness is used twice", "statement": "In any sequence of key generations, signings and verifications sharing one generator, every key pair and every signature is made from its own stretch of the generator's output: the keys' seeds, the ephemeral seeds and the salts are the bytes at positions that depend only on the calls made before, and no two stretches overlap. Two signatures made with the same ephemeral seed and salt would give away a monomial between codes of the public key in every round in which their challenges differ.", "quantifier": "all sequences of calls, all messages, all generator seeds, all contents of uninitialised memory", "why_tests_cant": "Ranges over all histories; reuse shows only in particular orders of calls and in no single output.", "anchors": ["Reference_Implementation/lib/LESS.c:LESS_keygen", "Reference_Implementation/lib/LESS.c:LESS_sign", "Reference_Implementation/include/rng.h:randombytes"]}
{"id": "C66", "title": "Calls may be made from several threads at once", "statement": "However the steps of any number of key generations and signings are interleaved, every call that returns has used its own stretches of the generator's output, no two calls share any of it, no array is left, keys are key pairs and signatures verify; and no call can be kept from returning.", "quantifier": "all numbers of calls, all interleavings of their steps, all keys and messages, all generator seeds, all contents of uninitialised memory", "why_tests_cant": "Ranges over all schedules; a race shows only under particular interleavings.", "anchors": ["Reference_Implementation/include/rng.h:randombytes", "Reference_Implementation/lib/rng.c:platform_csprng_state", "Reference_Implementation/lib/fips202.c:keccak_inc_squeeze", "Reference_Implementation/lib/LESS.c:LESS_keygen", "Reference_Implementation/lib/LESS.c:LESS_sign"]}
{"id": "C67", "title": "A signature verifies under one public key only", "statement": "A signature that is accepted under a public key is accepted under no other public key, for no message: whoever holds a signed message knows which key signed it.", "quantifier": "all pairs of public keys (honest or not), all messages and signatures, all contents of uninitialised memory", "why_tests_cant": "Ranges over all pairs of keys, including keys made for the purpose; a test tries unrelated keys only.", "anchors": ["Reference_Implementation/lib/sign.c:crypto_sign_open", "Reference_Implementation/lib/LESS.c:LESS_verify", "Reference_Implementation/lib/codes.c:expand_to_rref"]}
{"id": "C68", "title": "Forging a signature is as hard as finding the secret map, if the hash behaves randomly", "statement": "In the random-oracle model (the hash and the challenge expansion answer every new question with a uniformly chosen value), an attacker who is given only a public key, asks q questions and produces an accepted message and signature for more than (q+2) out of 2^lambda of the possible tables (lambda the security level), produces two accepted signatures for the same message, salt and commitments with different challenges, from which a monomial map between two codes of the public key can be computed. The owner of the key, on the other hand, succeeds on all but a negligible part of the tables.", "quantifier": "all parameter sets, all public keys (honest or not), all adaptive attackers that ask finitely many questions, all tables", "why_tests_cant": "Ranges over all programs an attacker may run and all functions the hash may be; no test can try either.", "anchors": ["Reference_Implementation/lib/LESS.c:LESS_sign", "Reference_Implementation/lib/LESS.c:LESS_verify", "Reference_Implementation/lib/utils.c:expand_digest_to_fixed_weight", "Reference_Implementation/include/sha3.h"]}
{"id": "C69", "title": "Different processes get different keys", "statement": "Two programs that call crypto_sign_keypair get key pairs that agree only if the random seeds they gave to the generator agree in the derived output; in particular a program cannot get a key that is known in advance to everybody.", "quantifier": "all parameter sets, all programs that call crypto_sign_keypair, whether or not they seeded the generator before, all seeds", "why_tests_cant": "A test run that passes says nothing about whether the key was predictable: an unseeded generator returns valid-looking keys that sign and verify correctly.", "anchors": ["Reference_Implementation/lib/rng.c:platform_csprng_state", "Reference_Implementation/lib/rng.c:randombytes", "Reference_Implementation/lib/sign.c:crypto_sign_keypair", "Reference_Implementation/lib/LESS.c:LESS_keygen", "Reference_Implementation/lib/test/less_test.c:main"]}
{"id": "C70", "title": "The project's own self-tests never report a failure", "statement": "Every test function of the test program (inverses, monomial inversion, matrix times monomial, row reduction, the compact, byte and action encodings, sign and verify, the repeated and known-answer round trips through the NIST API) terminates without undefined behaviour and reports success, whatever random input is drawn.", "quantifier": "all parameter sets, all generator states, all contents of uninitialised memory, all messages drawn, any number of repetitions", "why_tests_cant": "The tests themselves run on a few draws; whether a rare draw makes one of them fail cannot be found by running them.", "anchors": ["Reference_Implementation/lib/test/less_test.c:inverse_mod_tester", "Reference_Implementation/lib/test/less_test.c:gausselim_tester", "Reference_Implementation/lib/test/less_test.c:LESS_sign_verify_test", "Reference_Implementation/lib/test/less_test.c:LESS_sign_verify_test_multiple", "Reference_Implementation/lib/test/less_test.c:LESS_sign_verify_test_KAT"]}
{"id": "C71", "title": "Message and signed message may share memory", "statement": "crypto_sign and crypto_sign_open give the same result whether the buffers m and sm are separate or share memory, at any distance.", "quantifier": "all parameter sets, all memories, all positions of m and sm, all lengths, both directions in which memcpy may copy", "why_tests_cant": "Whether two buffers may overlap depends on the order of all reads and writes of both functions; a test fixes one distance and one length.", "anchors": ["Reference_Implementation/lib/sign.c:crypto_sign", "Reference_Implementation/lib/sign.c:crypto_sign_open", "Reference_Implementation/lib/LESS.c:LESS_sign"]}
{"id": "C72", "title": "Every expansion in a signature has an input of its own", "statement": "All seeds and monomials of a signature are expanded from strings that are different for different nodes of the seed tree, for different rounds, and for signatures with different salts, so that equal seeds in two places do not lead to equal derived values.", "quantifier": "all parameter sets, all keys, messages, salts and seeds, all nodes and rounds, all pairs of signatures", "why_tests_cant": "Equal seeds in two places do not occur in tests; whether they would matter is a statement about all pairs of places and all seeds.", "anchors": ["Reference_Implementation/lib/seedtree.c:generate_seed_tree_from_root", "Reference_Implementation/lib/seedtree.c:rebuild_seed_tree_leaves", "Reference_Implementation/lib/monomial.c:monomial_mat_seed_expand_salt_rnd", "Reference_Implementation/lib/LESS.c:LESS_sign"]}
{"id": "C73", "title": "Memory accesses do not depend on the private key", "statement": "The places in memory that key generation and signing read and write while they work with the private key are the same for all private keys, so an observer of memory accesses (for instance through a shared cache) learns nothing about the key.", "quantifier": "all parameter sets, generator states, private keys, codes, actions, contents of uninitialised memory", "why_tests_cant": "A test sees outputs; that two keys cause equal or different accesses is a statement about pairs of executions for all keys.", "anchors": ["Reference_Implementation/lib/monomial.c:monomial_mat_inv", "Reference_Implementation/lib/codes.c:generator_monomial_mul", "Reference_Implementation/lib/monomial.c:monomial_compose_action", "Reference_Implementation/lib/LESS.c:LESS_keygen", "Reference_Implementation/lib/LESS.c:LESS_sign"]}
{"id": "C74", "title": "Printed matrices are the matrices", "statement": "The text printed for a matrix or a monomial contains its entries, in order and completely, so that the object can be read back from the text; the expanded form shows the matrix with which the library multiplies.", "quantifier": "all parameter sets, all matrices and monomials with any entries, all names", "why_tests_cant": "A test compares one printed text with one expectation; that nothing is lost or merged depends on every value an entry can have.", "anchors": ["Reference_Implementation/lib/codes.c:generator_pretty_print_name", "Reference_Implementation/lib/codes.c:generator_rref_pretty_print_name", "Reference_Implementation/lib/monomial.c:monomial_mat_pretty_print_name", "Reference_Implementation/lib/monomial.c:monomial_mat_print_exp_name"]}
{"id": "C75", "title": "The benchmark reports what it measured", "statement": "The two numbers the benchmark prints for an operation are the average and the standard deviation of all measured durations, each duration is one execution of the operation on a random input, and the final verdict is 'functional'.", "quantifier": "all parameter sets, all values of the cycle counter, all contents of uninitialised memory, any number of iterations", "why_tests_cant": "Durations differ from run to run and the averages are accumulated step by step; a test can compare one run only, and cannot see on which inputs the operation ran.", "anchors": ["Reference_Implementation/lib/bench/less_benchmark.c:welford_update", "Reference_Implementation/lib/bench/less_benchmark.c:welford_print", "Reference_Implementation/lib/bench/less_benchmark.c:microbench", "Reference_Implementation/lib/bench/less_benchmark.c:LESS_sign_verify_speed", "Reference_Implementation/lib/bench/less_benchmark.c:main"]}
{"id": "C76", "title": "The parameter script bounds the size of the published seeds", "statement": "For given numbers of rounds and of withheld rounds and a given seed length, the number of bytes printed by the parameter script is enough for the seeds published by a signature, whichever rounds are withheld; and the constants of all parameter sets are the printed numbers.", "quantifier": "all numbers of rounds below 65536, all weights, all seed lengths, all sets of withheld rounds; all seven parameter sets", "why_tests_cant": "The number of sets of withheld rounds is astronomic, and the worst case is met by none that a test would draw; the cases in which the script is wrong are not among the published parameter sets.", "anchors": ["Utilities/Parameter_Generation_Scripts/seed_tree_param_computer.py:worst_case_seed_tree_cost", "Reference_Implementation/include/parameters.h:SEED_TREE_MAX_PUBLISHED_BYTES", "Reference_Implementation/include/parameters.h:NUM_LEAVES_OF_SEED_TREE", "Reference_Implementation/lib/seedtree.c:seed_tree_path"]}
{"id": "C77", "title": "The memory benchmarks measure complete operations", "statement": "Each of the three memory benchmarks measures complete executions of its operation: key generation yields matching keys, signing yields signatures the public key accepts, and verification accepts.", "quantifier": "all parameter sets, all contents of uninitialised memory, any number of iterations, all values of the cycle counter", "why_tests_cant": "The programs print durations only and discard the results of the measured calls, so no run shows whether verification accepted.", "anchors": ["Utilities/MemoryBenchmarking/lib/less_keygen.c:LESS_keygen_mem", "Utilities/MemoryBenchmarking/lib/less_sign.c:LESS_sign_mem", "Utilities/MemoryBenchmarking/lib/less_verify.c:LESS_verify_mem", "Utilities/MemoryBenchmarking/lib/less_verify.c:main", "Reference_Implementation/lib/LESS.c:LESS_verify"]}
{"id": "C78", "title": "The assembly permutation can replace the portable one", "statement": "The assembly functions shipped with the optimised implementation permute the state as Keccak-p with 24, 12 or the given number of rounds does, without accessing anything outside of the state and their tables, and can be called in place of the portable permutation.", "quantifier": "all states of 1600 bits, all contents of the registers, all numbers of rounds", "why_tests_cant": "One wrong shuffle, rotation or constant changes the result for some states only; the disabled call is never executed by any test.", "anchors": ["Optimized_Implementation/avx2/lib/KeccakP-1600-AVX2.s:KeccakP1600_Permute_24rounds", "Optimized_Implementation/avx2/lib/KeccakP-1600-AVX2.s:KeccakP1600_Permute_12rounds", "Optimized_Implementation/avx2/lib/KeccakP-1600-AVX2.s:KeccakP1600_Permute_Nrounds", "Optimized_Implementation/avx2/lib/KeccakP-1600-AVX2.s:__KeccakF1600", "Optimized_Implementation/avx2/lib/keccakf1600.c:KeccakF1600_StatePermute"]}
{"id": "C79", "title": "The assembly functions access the bytes of the state they are asked to", "statement": "Initialising sets the state to zero; adding, overwriting and extracting bytes at an offset affects exactly the given bytes of the state, in the order of FIPS 202, whatever their alignment to lanes, and nothing else; extracting with addition gives the sum of state and input.", "quantifier": "all states, all data, all offsets and lengths, all positions of input and output", "why_tests_cant": "The ways through head, whole lanes and tail depend on offset and length together, and the bytes of a state are permuted in memory.", "anchors": ["Optimized_Implementation/avx2/lib/KeccakP-1600-AVX2.s:KeccakP1600_Initialize", "Optimized_Implementation/avx2/lib/KeccakP-1600-AVX2.s:KeccakP1600_AddByte", "Optimized_Implementation/avx2/lib/KeccakP-1600-AVX2.s:KeccakP1600_AddBytes", "Optimized_Implementation/avx2/lib/KeccakP-1600-AVX2.s:KeccakP1600_OverwriteBytes", "Optimized_Implementation/avx2/lib/KeccakP-1600-AVX2.s:KeccakP1600_OverwriteWithZeroes", "Optimized_Implementation/avx2/lib/KeccakP-1600-AVX2.s:KeccakP1600_ExtractBytes", "Optimized_Implementation/avx2/lib/KeccakP-1600-AVX2.s:KeccakP1600_ExtractAndAddBytes"]}
{"id": "C80", "title": "The assembly loops absorb all whole blocks", "statement": "The absorbing functions of the assembly file add each whole block of the given number of lanes to the state and permute it, as the sponge of FIPS 202 does, and return the number of bytes they consumed, which is the length of all whole blocks of the data.", "quantifier": "all states, all data of any length, all numbers of lanes, all contents of the registers", "why_tests_cant": "Lengths are unbounded, blocks of 17 and 21 lanes have code of their own, and other numbers of lanes take a third way.", "anchors": ["Optimized_Implementation/avx2/lib/KeccakP-1600-AVX2.s:KeccakF1600_FastLoop_Absorb", "Optimized_Implementation/avx2/lib/KeccakP-1600-AVX2.s:KeccakP1600_12rounds_FastLoop_Absorb", "Optimized_Implementation/avx2/lib/KeccakP-1600-AVX2.s:mapState"]}
{"id": "C81", "title": "Seeing signatures does not help to forge one, if the hash behaves randomly", "statement": "In the random-oracle model, with the monomials of the rounds drawn at random for each signature: an attacker who is given a public key, asks q questions (to the hash, to the challenge expansion, and for signatures of messages of its choice) and returns an accepted signature of a message it saw no signature of for more than 2(q+2) out of 2^lambda of the possible tables, leads to two accepted signatures for the same message, salt and commitments with different challenges, from which a monomial map between two codes of the public key can be computed; and the runs that produce them need only the public key.", "quantifier": "all parameter sets, all keys made by key generation, all adaptive attackers that ask finitely many questions, all tables, all coins of the signer", "why_tests_cant": "Ranges over all programs an attacker may run, all functions the hash may be and all signatures a signer may give; no test can try any of them.", "anchors": ["Reference_Implementation/lib/LESS.c:LESS_keygen", "Reference_Implementation/lib/LESS.c:LESS_sign", "Reference_Implementation/lib/LESS.c:LESS_verify", "Reference_Implementation/lib/utils.c:expand_digest_to_fixed_weight", "Reference_Implementation/lib/codes.c:prepare_digest_input"]}
{"id": "C82", "title": "A forger can be turned into an algorithm that finds a secret map, with a stated chance", "statement": "In the model of C81: if an attacker forges a signature of a new message with chance e, asking q questions, and e is at least 4(q+2)/2^lambda, then the program that has only the public key, runs the attacker once with simulated signatures, and runs it again from the question that drew the challenge of its forgery, asks at most 2(q+2) questions and with chance at least e^2/(8(q+2)) ends with two accepted signatures for the same message, salt and commitments with different challenges, from which a monomial map between two codes of the public key can be computed.", "quantifier": "all parameter sets, all keys made by key generation, all adaptive attackers that ask finitely many questions, all tables, all coins of the signer", "why_tests_cant": "Ranges over all programs an attacker may run, all functions the hash may be and all signatures a signer may give; no test can try any of them, and no test can measure a chance this small.", "anchors": ["Reference_Implementation/lib/LESS.c:LESS_keygen", "Reference_Implementation/lib/LESS.c:LESS_sign", "Reference_Implementation/lib/LESS.c:LESS_verify", "Reference_Implementation/lib/utils.c:expand_digest_to_fixed_weight", "Reference_Implementation/lib/codes.c:prepare_digest_input"]}
{"id": "C83", "title": "Seeds shown in signatures say nothing about the rounds kept secret", "statement": "If the expansions of seeds (a node to its children, a leaf to the stream of its round) behave like independent random tables for each salt, then somebody who sees, for n signatures with different salts, what is computed from the streams of all rounds, who chooses afterwards which rounds stay hidden, gets the seeds a signature publishes, and asks the tables up to q questions, cannot tell this from the case where all seeds and streams are drawn independently of each other, except with chance (L-1)(q+n(L-1))/2^(8 seedLen), L being the number of leaves. In particular the seed of a hidden round is not found, except with chance (L-1)(q+1+n(L-1))/2^(8 seedLen).", "quantifier": "all parameter sets, all numbers of signatures, all adaptive programs that ask finitely many questions, all choices of hidden rounds, all tables and root seeds", "why_tests_cant": "Ranges over all programs an observer may run and all functions the expansion may be; the chances in question are far too small to be measured.", "anchors": ["Reference_Implementation/lib/seedtree.c:generate_seed_tree_from_root", "Reference_Implementation/lib/seedtree.c:seed_tree_path", "Reference_Implementation/lib/monomial.c:monomial_mat_seed_expand_salt_rnd", "Reference_Implementation/lib/LESS.c:LESS_sign"]}
{"id": "C84", "title": "Keys and signatures mean the same on every machine", "statement": "Keys made on one machine, a signature made with them on a second and checked on a third: it is accepted, whatever the byte orders of the machines. The same random bytes lead to the same key pair on every machine.", "quantifier": "all parameter sets, all keys, messages and random bytes, all byte orders of the machines involved, all earlier contents of memory", "why_tests_cant": "Tests run on one kind of machine; the claim compares runs on different kinds, for all keys and messages.", "anchors": ["Reference_Implementation/lib/utils.c:expand_digest_to_fixed_weight", "Reference_Implementation/lib/monomial.c:yt_shuffle_state", "Reference_Implementation/lib/monomial.c:monomial_mat_seed_expand_salt_rnd", "Reference_Implementation/include/fq_arith.h:DEF_RAND_STATE", "Reference_Implementation/lib/LESS.c:LESS_verify"]}
{"id": "C85", "title": "The vector operations are the described ones on both instruction sets", "statement": "Each operation of the vector layer gives the same result with AVX2 and with NEON for all vectors, and it is the one described: reductions give the remainder modulo 127, permutations put the selected halves in their places, shifts and shuffles move bits and bytes alike.", "quantifier": "all vectors, all selectors and shift counts, both instruction sets", "why_tests_cant": "There are 2^256 vectors, and tests on one machine exercise one instruction set only.", "anchors": ["Optimized_Implementation/avx2/include/macro.h:barrett_red16", "Optimized_Implementation/avx2/include/macro.h:vpermute2", "Optimized_Implementation/neon/include/macro.h:vpermute2", "Optimized_Implementation/neon/include/macro.h:vsr16", "Optimized_Implementation/neon/include/macro.h:barrett_red8"]}
{"id": "C86", "title": "The result of a matrix operation may overwrite an argument", "statement": "A call of the product, inverse or composition of monomial matrices, or of the product with a generator matrix, that passes one of its arguments as the place of the result leaves there the same matrix as a call with separate memory.", "quantifier": "all valid monomial matrices, all column selections, all generator matrices, all parameter sets", "why_tests_cant": "Whether entries are read after they were overwritten depends on the permutation, of which there are N factorial, and tests use separate variables.", "anchors": ["Reference_Implementation/lib/monomial.c:monomial_mat_mul", "Reference_Implementation/lib/monomial.c:monomial_mat_inv", "Reference_Implementation/lib/monomial.c:monomial_compose_action", "Reference_Implementation/lib/codes.c:generator_monomial_mul", "Reference_Implementation/include/monomial_mat.h"]}
{"id": "C87", "title": "Sorting takes bounded time and stack", "statement": "Whatever the columns of a commitment are, sorting n of them makes 2n-1 calls of the recursive function, never more than n of them nested, and at most (n-1)(n+6)/2 comparisons of columns; the bound on nested calls is attained.", "quantifier": "all matrices of bytes, all parameter sets", "why_tests_cant": "The order of the columns decides the course of the sort, and tests sort random columns only, which never come near the worst case.", "anchors": ["Reference_Implementation/lib/codes.c:col_lex_quicksort", "Reference_Implementation/lib/codes.c:Hoare_partition", "Reference_Implementation/lib/codes.c:lex_sort_cols"]}
{"id": "C88", "title": "The reductions that are switched off can replace the one in use", "statement": "Barrett's reduction and the Mersenne reduction, which the source offers as replacements, return the remainder modulo 127 of every 16-bit number, also without the subtraction marked as not needed.", "quantifier": "all 16-bit arguments, any number of rounds of the loop", "why_tests_cant": "The code is not compiled, so no test runs it, and whether a loop ends is not observable by testing.", "anchors": ["Reference_Implementation/include/fq_arith.h:fq_red", "Reference_Implementation/include/fq_arith.h:BARRETT_MU"]}
{"id": "C89", "title": "A debug build never aborts and agrees with the release build", "statement": "Compiled with its assertions, signing and opening return exactly what they return without them and never abort the process, for any bytes as keys, message and signed message; the function that prepares a commitment aborts on a direct call exactly if the rows of its matrix are dependent.", "quantifier": "all private and public keys, messages, signed messages, randomness and earlier memory contents, reference and optimized code, both instruction sets; for the direct call all matrices and monomial matrices", "why_tests_cant": "An assertion that some key or signature fires is a denial of service that only an exhaustive search over inputs would show.", "anchors": ["Reference_Implementation/include/fq_arith.h:ASSERT", "Reference_Implementation/lib/codes.c:prepare_digest_input", "Reference_Implementation/lib/LESS.c:LESS_sign", "Reference_Implementation/lib/LESS.c:LESS_verify", "Reference_Implementation/lib/sign.c:crypto_sign_open", "Optimized_Implementation/common/lib/codes.c:prepare_digest_input"]}
{"id": "C90", "title": "Opening takes a bounded number of column comparisons, whoever made the key", "statement": "For all bytes as public key and signed message, opening makes at most T sorts with at most (n-1)(n+6)/2 comparisons and n nested calls each, n the number of columns. There are a well-formed public code and a well-formed response with which every verification makes W (n-1)(n+4)/2 comparisons and nests n calls, so the quadratic cost is reachable by whoever chooses the key and the signature.", "quantifier": "all public keys, signed messages, lengths, buffer sizes and earlier memory contents; for the lower bound all seeds, messages, salts, digests and parameter sets with at least 3 rows", "why_tests_cant": "The cost depends on the order of the columns that a chosen key produces; tests with random keys only see the average case.", "anchors": ["Reference_Implementation/lib/sign.c:crypto_sign_open", "Reference_Implementation/lib/LESS.c:LESS_verify", "Reference_Implementation/lib/codes.c:lex_sort_cols", "Reference_Implementation/lib/codes.c:col_lex_quicksort"]}
{"id": "C91", "title": "The share of honest signatures that opening refuses is known exactly", "statement": "An honest signed message is refused by opening if and only if its challenge is one that makes signing publish as many seeds as the limit. Of all sequences of random numbers that determine a challenge, these are 1365*2^70 of C(244,20) in category 1 intermediate (about one signature in 64102) and 105*2^88 of C(247,30) in category 1 balanced (about one in 2^33.4); in the other five parameter sets there are none.", "quantifier": "all honest keys, messages and signatures; all sequences of random numbers of any length at least W; all seven parameter sets and all numbers of published seeds", "why_tests_cant": "The share is a count over about 2^128 challenges; a test would need tens of thousands of signatures to see a single refusal in one parameter set and 2^33 in the other.", "anchors": ["Reference_Implementation/lib/sign.c:crypto_sign_open", "Reference_Implementation/lib/seedtree.c:seed_tree_path", "Reference_Implementation/lib/utils.c:expand_digest_to_fixed_weight", "Reference_Implementation/include/parameters.h:MAX_PUBLISHED_SEEDS"]}
{"id": "C92", "title": "Shortest, longest and average length of a signature are known exactly", "statement": "For every parameter set the length of the output of crypto_sign minus that of the message is between two stated values, both of which come up, and its average over all sequences of random numbers that determine a challenge is a stated value: for example 7239, 8647 and 8345 bytes in category 1 balanced.", "quantifier": "all honest calls of crypto_sign with every key, message, random state and earlier memory; all sequences of random numbers of any length at least W; every well-formed parameter set for the extremes, the seven of the library for the average", "why_tests_cant": "The extremes occur with probabilities far below what tests can reach (for the shortest signature about 2^-120) and the average is a sum over about 2^128 challenges.", "anchors": ["Reference_Implementation/lib/sign.c:crypto_sign", "Reference_Implementation/lib/seedtree.c:seed_tree_path", "Reference_Implementation/include/parameters.h:LESS_CRYPTO_BYTES"]}
{"id": "C93", "title": "Calls on a hash context in any order are safe and disclose nothing", "statement": "Whatever sequence of initialise, absorb, finalize and squeeze calls a program makes on one incremental SHAKE or SHA-3 context, with whatever buffers and lengths, after it has been initialised once: every call returns, stays within the context and its buffers, writes only the output it was asked for, initialising again makes the context as good as new, and the output never contains the absorbed input itself.", "quantifier": "all sequences of calls of any length, all buffers, positions and lengths (up to 2^64-200 bytes per call), all rates of the library, all earlier contents of the context", "why_tests_cant": "The sequences are unbounded; unit tests call the functions in the intended order.", "anchors": ["Reference_Implementation/lib/fips202.c:keccak_inc_init", "Reference_Implementation/lib/fips202.c:keccak_inc_absorb", "Reference_Implementation/lib/fips202.c:keccak_inc_finalize", "Reference_Implementation/lib/fips202.c:keccak_inc_squeeze"]}
{"id": "C94", "title": "The work of the sorts in signing is bounded and does not depend on the secret", "statement": "Every call of crypto_sign that returns makes exactly T sorts with a fixed number of recursive calls and at most a stated number of comparisons of two columns (126 columns and 247 sorts in category 1 balanced: at most 2037750), and these numbers are the same for all messages, all secret parts of the private key, all output buffers and all contents of uninitialised memory.", "quantifier": "all private keys (any bytes), messages, random states, buffers and uninitialised memory; every well-formed parameter set; for the independence all pairs of calls with the same random state and public seed", "why_tests_cant": "Quantifies over all keys, messages and memory; the worst case of the sort is not reached by random inputs.", "anchors": ["Reference_Implementation/lib/sign.c:crypto_sign", "Reference_Implementation/lib/LESS.c:LESS_sign", "Reference_Implementation/lib/codes.c:prepare_digest_input", "Reference_Implementation/lib/codes.c:lex_sort_cols"]}
{"id": "C95", "title": "Copies of a process do not share randomness", "statement": "When a process that has used the library is copied (by fork, or by going on twice from one saved state after a crash), whatever calls were made before and whatever calls the copies make, every signature of every copy still verifies and no memory is accessed out of bounds; and no two signatures or keys made in different copies use the same randomness.", "quantifier": "all sequences of calls before the copy, all sequences of calls in each copy, all generator seeds, all messages, all contents of uninitialised memory; copies that do and copies that do not seed the generator again", "why_tests_cant": "Ranges over all histories of several processes and all points at which they part; the test suite runs one process.", "anchors": ["Reference_Implementation/lib/rng.c:platform_csprng_state", "Reference_Implementation/lib/rng.c:initialize_csprng", "Reference_Implementation/include/rng.h:randombytes", "Reference_Implementation/lib/LESS.c:LESS_sign", "Reference_Implementation/lib/LESS.c:LESS_keygen"]}
{"id": "C96", "title": "Memory read after a call does not show earlier secrets", "statement": "Whoever reads the state of the random generator, or the memory a call has left behind, after any history of calls learns nothing about the private keys and signatures made before: the earlier output of the generator cannot be computed from its later state, and the contexts left on the stack do not show the private key.", "quantifier": "all histories of key generations, signings and verifications, all seeds, all keys and messages, all states of the generator, all numbers of bytes drawn", "why_tests_cant": "That a permutation cannot (or can) be run backwards is a statement about all its inputs; no test reads memory after a call.", "anchors": ["Reference_Implementation/lib/rng.c:platform_csprng_state", "Reference_Implementation/lib/fips202.c:keccak_inc_squeeze", "Reference_Implementation/lib/keccakf1600.c:KeccakF1600_StatePermute", "Reference_Implementation/lib/LESS.c:LESS_keygen", "Reference_Implementation/lib/LESS.c:LESS_sign", "Reference_Implementation/include/rng.h:randombytes"]}
{"id": "C97", "title": "Keys of different parameter sets are kept apart", "statement": "A key belongs to the parameter set it was made for: the keys that two parameter sets make have nothing in common, and a private key made for one set does not sign for another.", "quantifier": "all pairs of parameter sets of one category, all states of the generator, all memory contents before the calls, all messages", "why_tests_cant": "The library is compiled for one parameter set at a time, so no test compares two; and the claim is about all keys.", "anchors": ["Reference_Implementation/include/parameters.h:NUM_KEYPAIRS", "Reference_Implementation/lib/LESS.c:LESS_keygen", "Reference_Implementation/lib/LESS.c:LESS_sign", "Reference_Implementation/lib/sign.c:crypto_sign_keypair", "Reference_Implementation/lib/sign.c:crypto_sign"]}
{"id": "C98", "title": "An interrupted signing call shows only parts of its signature", "statement": "Whenever a call of crypto_sign is stopped (the process is killed and its memory read, a signal handler leaves the call), every byte of the output buffer is the byte that was there before, the byte the call would have left there, or zero; and if something of the signature is already there, the next signature uses other random bytes.", "quantifier": "all moments between two steps that write, all keys, messages, states of the generator, contents of the buffer and of uninitialised memory; for the second claim all calls that follow", "why_tests_cant": "Tests run calls to the end; the claim is about every moment of every call.", "anchors": ["Reference_Implementation/lib/sign.c:crypto_sign", "Reference_Implementation/lib/LESS.c:LESS_sign", "Reference_Implementation/lib/seedtree.c:seed_tree_path", "Reference_Implementation/lib/monomial.c:compress_monom_action"]}
{"id": "C99", "title": "An interrupted key generation leaves a key pair", "statement": "Whenever a call of crypto_sign_keypair that overwrites a key pair is stopped, the two buffers hold keys that belong together: those from before or the new ones; and the next key pair uses none of the random bytes of a secret that was already written.", "quantifier": "all moments between two steps that write, all earlier keys, all states of the generator, contents of uninitialised memory; for the second claim all calls that follow", "why_tests_cant": "Tests run calls to the end; the claim is about every moment of every call.", "anchors": ["Reference_Implementation/lib/sign.c:crypto_sign_keypair", "Reference_Implementation/lib/LESS.c:LESS_keygen"]}
{"id": "C100", "title": "One disturbance of a signing call does not cost the private key", "statement": "If one value in memory is disturbed while crypto_sign runs (a flipped bit, a skipped store), the signature that comes out shows no more of the private key than an undisturbed one.", "quantifier": "all rounds and sets of rounds whose flag is disturbed, all keys, messages, states of the generator, contents of uninitialised memory, all parameter sets", "why_tests_cant": "Tests run on undisturbed machines, and the output of a disturbed call would have to be analysed for every place of the disturbance.", "anchors": ["Reference_Implementation/lib/LESS.c:LESS_sign", "Reference_Implementation/lib/seedtree.c:seed_tree_path"]}
