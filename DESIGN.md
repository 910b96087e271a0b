# Formal model of LESS (less-sig/LESS) in Lean 4

Properties are in `properties.jsonl`, the theorems proving or refuting them in `MANIFEST.json`, the experiments with
deliberately broken models in `seeded/LOG.jsonl`. In that log `proofs_failed` are the proofs Lean rejected after the edit; `theorems_failed` are the property theorems among
them and those that depend on one of them in the current development, so a theorem added after the attempt is listed by
dependency and was not rebuilt against the edit. The Lean project is in `lean/`; `lake build` there checks everything.

    Verif/Basic.lean   the execution model of C, weakest preconditions
    Verif/Model/       the code, function by function, with file and line numbers
    Verif/Spec/        specifications that do not use the model
    Verif/Proofs/      lemmas
    Verif/Props/       the theorems of MANIFEST.json (names start with the property id) and concrete cases for them

## How C is modelled

* `C α := Except CErr α`. `CErr.oob` is undefined behaviour: an access outside an array, a pointer moved beyond the end
  of its buffer, the overflow of a signed `int`. `CErr.fuel` means that a loop without a bound in the code (rejection
  sampling) did not finish within `fuel` draws. Theorems are quantified over every `fuel`, so they cover every
  execution that terminates. The other `while` loops carry a counter as well, and are proved never to exhaust it.
* Arrays with a declared size are `Vector α n`; every access goes through the checked `rd`/`wr`. `for` loops are
  structural recursion on the trip count (`forUp`, `forRet` with early return).
* Integers are `Nat` reduced where C truncates or wraps (`u8`, `u16`, `u32`, `u64`); bytes are `UInt8`, Keccak lanes
  `UInt64`.
* Uninitialised locals and the previous contents of out-parameters are explicit arguments (`Stale`). Theorems are
  quantified over them.
* The generator state of `rng.c` is threaded explicitly; `RngOk` says that it was initialised and then only read.
* `Params` is a record; the seven parameter sets of `parameters.h` are seven values of it. Theorems hold for every
  record with `Params.WF`, and `C43_parameter_sets_wellformed` shows this for the seven sets.
* Pointer casts between `unsigned char*` and the structs of `LESS.h` are explicit conversions (`readPub`, `readSign`,
  ...). The structs contain only byte arrays, so there is no padding.

## What is modelled

| code | model |
|---|---|
| `include/parameters.h` | `Model/Params` |
| `Utilities/Parameter_Generation_Scripts/seed_tree_param_computer.py` | `Model/ParamScript` |
| `Optimized_Implementation/avx2/lib/KeccakP-1600-AVX2.s`: `__KeccakF1600`, `KeccakP1600_Permute_24rounds`, `_12rounds`, `_Nrounds` | `Model/KeccakAsm` |
| The same file: `KeccakP1600_Initialize`, `AddByte`, `AddBytes`, `OverwriteBytes`, `OverwriteWithZeroes`, `ExtractBytes`, `ExtractAndAddBytes`, the two `FastLoop_Absorb` | `Model/KeccakBytes` |
| `Utilities/MemoryBenchmarking/lib/less_keygen.c`, `less_sign.c`, `less_verify.c` | `Model/MemBench` |
| `include/fq_arith.h` | `Model/Fq`, `Model/Sampler` |
| `lib/monomial.c`, `include/monomial_mat.h` | `Model/Monomial` |
| `lib/codes.c`, `include/codes.h` | `Model/Codes` |
| `lib/seedtree.c` | `Model/SeedTree` |
| `lib/utils.c`, `lib/LESS.c`, `include/LESS.h` | `Model/Less` |
| `lib/sign.c`, `include/api.h` | `Model/Sign`; `Model/Alias` (buffers in one memory) |
| `lib/keccakf1600.c`, `lib/fips202.c`, `include/sha3.h`, `lib/rng.c`, `include/rng.h` | `Model/Keccak` (values), `Model/KeccakMem` (buffers, pointers, 32- and 64-bit lengths) |
| `LESS_keygen`, `LESS_sign` and `keccak_inc_squeeze` statement by statement on the shared generator | `Model/Threads` |
| order of array accesses of `timing_safe_memcmp` and `lex_minimize` | `Model/Trace` |
| the same for the functions applied to private monomials (`monomial_mat_inv`, `generator_monomial_mul`, `monomial_compose_action`) | `Model/SecretTrace` |
| `Optimized_Implementation/common`: field arithmetic, RREF with row table, products, key generation, signing, verification | `Model/Opt` |
| the vector macros of `Optimized_Implementation/avx2` and `neon` | `Model/Vec`, `Model/VecMore` |
| `monomial_mat_mul`, `monomial_mat_inv`, `monomial_compose_action`, `generator_monomial_mul` with a shared argument | `Model/InPlace` |
| the work of `col_lex_quicksort` and `Hoare_partition` | `Model/SortCost` |
| the versions of `fq_red` that are switched off | `Model/FqVariants` |
| work of the sorts of `crypto_sign_open` | `Model/VerifyCost` |
| work of the sorts of `LESS_sign` | `Model/SignCost` |
| what the two outputs and the generator hold at every moment of `LESS_keygen`, `LESS_sign`, `crypto_sign_keypair`, `crypto_sign` | `Model/Interrupt` |
| `LESS_sign` with a disturbed array of flags or a disturbed challenge | `Model/Fault` |
| the sponge context that the expansion of the private key leaves behind | `Model/KeyContext` |
| key generation, signing and verification on a machine of either byte order | `Model/ByteOrder` |
| `ASSERT` in builds without `NDEBUG` | `Model/Debug` |
| `lib/nist/KAT_NIST_rng.c` | `Model/KatRng` |
| `lib/nist/PQCgenKAT_sign.c` | `Model/KatFile` |
| `lib/test/less_test.c` (test functions and `main`, without printing) | `Model/Testbench` |
| `lib/bench/less_benchmark.c` | `Model/Bench` |
| the printing functions of `lib/codes.c` and `lib/monomial.c` | `Model/Print` |

The signature model uses `Model/Keccak`. `Proofs/KeccakMem` proves that the memory-level functions compute the same values
without leaving their buffers (for pieces up to 2^64-200 bytes).

## Simplifications and what is not modelled

* The compiler, the linker, the stack size, and libc. `memcpy`, `memset`, `memcmp`, `fgetc`, `fprintf`, `fscanf`, `isxdigit`
  and `strncmp` are taken from the C standard; `fopen` and `calloc` succeed; `fscanf` does not see signs.
* Little-endian machine (except in C84, which treats both byte orders) with 8-bit bytes, 32-bit `int`, 64-bit `size_t`, no strict-aliasing or alignment effects of the
  casts in `sign.c`.
* Overlapping arguments (`m` and `sm`) of `crypto_sign` and `crypto_sign_open` are treated in `Model/Alias` only, with a `memcpy`
  that copies byte by byte (the C standard leaves it undefined).
* Where the caller of `crypto_sign_open` owns `mcap` bytes of `m`, a longer message is `.oob`.
* AES-256 (OpenSSL) is an arbitrary function `aes key block` in `Model/KatRng`. Error handling of OpenSSL calls
  (`handleErrors`, which aborts) is not modelled.
* `Model/Threads` interleaves whole statements of `keccak_inc_squeeze` (those touching the shared context) on a sequentially
  consistent memory; in C the unlocked interleavings are data races and undefined behaviour already. Calls touch no other shared
  variable. The lock is not part of the library.
* The intrinsics behind `Model/Vec` follow their documentation.
* Scalar functions of the optimized code are modelled on the first `N` of `N_pad` columns; padding accesses count as
  out of bounds for them.
* In `Model/ParamScript` floating-point logarithms are exact; for arguments below 65536 rounding them up gives the same integer.
* `Utilities/MemoryBenchmarking/lib/less_benchmark.c` and the two programs of `Utilities/Benchmarking/lib` are older copies of `less_benchmark.c` and `less_test.c` and are not modelled.
* In `Model/Bench` the cycle counter is arbitrary, `long double` is exact, and the square root of the printed deviation is not taken.
* `printf` with `%d`, `%u` and `%03u` writes decimal digits, in the last case at least three (`Model/Print`).
* Not modelled: the macros `vadd64`, `vload128`, `vstore128`, `vzero` and `barrett_red8_half`, `print256_num`, unused statistics functions of the benchmark, `m1cycles.h`, the libkeccak variant, functions declared in `codes.h` without a definition, cycle
  counters, timing, caches, power.
* Cryptographic hardness. Statements about security are reductions with an explicit witness ("... or these two
  strings are a collision").

## Trusted base

* Lean 4.33.0's kernel and the Mathlib modules imported.
* The reading of the C code embodied in `Verif/Model`, under the simplifications above.
* The statements in `Verif/Props` and the specifications in `Verif/Spec`.
* The axioms below, printed by `#print axioms`. No axiom is added; `sorry`, `native_decide` and `bv_decide` are not used.

| axioms | theorems of MANIFEST.json |
|---|---|
| none | `C03_strict_sets`, `C11_padding_sets`, `C40_padding`, `C74_square`, `C97_lengths_partial` |
| `propext` | `C02_strict_sets`, `C07_sets`, `C43_parameter_sets_wellformed`, `C43_script_matches`, `C78_order`, `C85_fails_reduce16`, `C88_fails_barrett`, `C88_fails_barrett_once` |
| `propext`, `Quot.sound` | `C30_reduction`, `C31_output_exists`, `C33_absorb_split`, `C33_digest_split`, `C33_reachable`, `C34_squeeze_length`, `C34_squeeze_split`, `C37_one_shot`, `C37_squeezeblocks`, `C42_accesses_fixed`, `C42_comparison_exact`, `C43_action_bytes`, `C50_accesses`, `C50_locations_fixed_partial`, `C50_reads_depend_on_data`, `C58_words`, `C59_words`, `C65_apart`, `C72_signatures_apart`, `C73_compose_coefficients_hidden_partial`, `C73_record_exists`, `C73_response_record_exists`, `C76_overflow`, `C78_fails_zero_rounds`, `C79_add_byte`, `C79_bytes`, `C79_fails_overlap`, `C79_fails_range`, `C82_two_runs`, `C84_fails_keys`, `C84_little_endian`, `C87_same`, `C90_same`, `C94_same`, `C96_reseeded_partial`, `C98_same`, `C98_same_sign`, `C99_record`, `C99_same`, `Kat.C49_init_refuses`, `Kat.C49_output_is_stream_prefix`, `Kat.C52_after_first`, `Kat.C52_fails_zero_length`, `Mem.C53_fails_wraparound` |
| `propext`, `Classical.choice`, `Quot.sound` | the remaining 355 |

## Properties

"Refuted" means that a theorem `Cxx_fails_...` exhibits or constructs a counterexample; the positive part that
remains is `Cxx_..._partial`. Concrete cases that meet the hypotheses stand beside the theorems; those about the whole scheme
are in `Props/Run`, where one complete run (key generation, signature, verification with the parameter record `toy`,
N=132, K=2) is evaluated by the kernel, and in `Props/Cases`. Further ones are in `Props/BlockCases`, `ToolCases` and
`GameCases`, each naming the theorems it applies.

| id | what is modelled, and how it is proved |
|---|---|
| C01 | `LESS_keygen`, `LESS_sign`, `LESS_verify`. Each is shown to meet a relation of `Spec/Less` (matrices over `ZMod 127`, SHAKE, SHA-3) by loop invariants; completeness is then proved about the relations. |
| C02 | `crypto_sign*` as byte buffers. From C01 and the layout. Partial: holds if the number of published seeds is below the limit, which is always so for five sets; for category 1 balanced and intermediate, signed messages at the limit are refused (`C02_open_refuses`). `TightRun.refused` is a complete run, evaluated by the kernel, in which this happens: a set with room for exactly the seeds that run publishes. |
| C03 | Worst case of `publishedNodes` by a combinatorial bound. Partial: true for five sets; refuted for two by a challenge that reaches the limit. |
| C04 | Byte offsets of `crypto_sign`; symbolic execution and C15. |
| C05, C06 | Weakest preconditions: no execution of key generation, signing, verification has outcome `.oob`. Uses full rank of public codes for verification. |
| C07 | `crypto_sign_open` on a buffer of exactly `smlen` bytes. Refuted: short inputs and inputs announcing too few seeds are read out of bounds. Partial: safe if the announced layout fits and announces enough seeds. `C07_oob_iff` gives the exact condition, for every key. |
| C08, C09 | `LESS_verify` returns 1 exactly if `Spec.Accepts`; from the refinement. |
| C10 | Two messages accepted with one signature give two different transcripts with equal hash. |
| C11 | Refuted: a seed can be appended, padding bits of responses can be changed. Partial: same digest means same commitments, message and salt, or a collision. |
| C12 | Extractor (`Spec/Extract`, computable) of a monomial map from two accepted answers; linear algebra over `ZMod 127`. |
| C13, C16 | `seed_tree_path`, `rebuild_tree`: induction over nodes and levels against `Spec/SeedTree`. |
| C14 | No node from which a withheld leaf is derived is published; tree induction. |
| C15 | Worst-case count of published nodes bounds the storage; induction on the tree. |
| C17 | `expand_digest_to_fixed_weight`: loop invariant, refinement to a stream specification. |
| C18 | `monomial_mat_seed_expand_*`, `monomial_mat_rnd`: invariants. |
| C19, C20 | Equality with Mathlib's matrix product and inverse over `ZMod 127`. |
| C21, C25, C26 | Bit-stream invariants for packing and unpacking, against `Spec/Bits`; shape of RREF. |
| C22 | Loop invariant of the validity check. |
| C23, C24 | `generator_RREF`: loop invariant (row equivalence and echelon shape); uniqueness of the reduced form. |
| C27–C29 | `lex_minimize`, quicksort (termination and sorting for every input), `prepare_digest_input`; uniqueness of sorted permutations. |
| C30 | All 16-bit inputs of `fq_red` by arithmetic; inversion by Fermat. |
| C31 | Samplers as refinement of a filter on the output stream; also shows that asking for zero elements writes one element (`C31_zero_elements_overflow`). |
| C32 | The exchange loop is a bijection between draws and permutations; the draws are the generator's words reduced; every permutation occurs; exact bias of a draw. |
| C33, C34, C37 | Incremental hashing: splitting lemmas by induction on blocks. |
| C35, C36 | Refinement to FIPS 202 written on bits (`Spec/Keccak`); the unrolled permutation equals the specification for every state. |
| C38–C40 | Optimized field operations, RREF and products equal the reference on reduced inputs; simulation of the row table by the reference loop. |
| C41 | Every terminating run of the optimized API is a run of the reference API and both give the same bytes. |
| C42 | `timing_safe_memcmp`: result exact; sequence of accesses independent of the data. |
| C43 | Constants of `parameters.h`, and the parameter script. The script's bound is one seed too small for powers of two; no set is affected. |
| C44 | Verification with arbitrary public key bytes. Refuted: a public code without pivot flags is read out of bounds. Partial: safe for codes with at most N-K dense columns, reduced or not. `C44_oob_iff` gives the exact condition for arbitrary keys; for it elimination is shown to treat the value 127 like 0. |
| C45 | Induction over histories of key generations and signatures from one generator. |
| C46 | Refinement: public codes are the reduced forms of `G0 * M_i⁻¹`. |
| C47 | Equality of results for two contents of uninitialised memory. |
| C48 | The hashed string determines its parts (`C48_transcript_injective`); the strings that signer and verifier hash have this form (`C48_signer`, `C48_verifier`). |
| C49 | CTR-DRBG against `Spec/KatRng` for every block cipher; counters as numbers. `randombytes` of 2^31 bytes or more overflows an `int` (`C49_fails_long_request`). |
| C50 | Access traces. Refuted on the abstract machine (short-circuit evaluation). Partial: exact trace, set of locations fixed. |
| C51 | Optimized code with uninitialised pointers as an explicit failure. Key generation and signing safe; verification refuted for unreduced public codes, safe for well-formed ones. |
| C52 | `FindMarker`, `ReadHex`, `fprintBstr` and `main` against `Spec/KatFile`; induction over requests. `ReadHex` with length 0 writes a byte (`C52_fails_zero_length`). |
| C53 | Memory-level hash functions: frame and value by refinement to `Model/Keccak` and C35. Pieces within 200 bytes of 2^64 make the length wrap (`C53_fails_wraparound`). |
| C54 | `randombytes`. Refuted for 2^32 bytes or more (truncated length). Partial: below 2^32 bytes. |
| C55 | `crypto_sign_open` returns 0 exactly if the specification accepts the signature at the end of the input for the bytes before it; from C09 and C07. |
| C56 | Refuted: the message is stored before verification. Partial: what is stored with result 0 is the message of an accepted signature. |
| C57 | A bijection of the ephemeral monomials (composition with the private one) turns the signer's round into a round computed from the public code; counts of every outcome are equal. `C57_transcript` does it for all rounds at once. `C57_signature` ties the pairs to `lessSign`. Computational hiding of the seeds is not expressible. |
| C58 | The sampler on an explicit list of words (`randOn`), tied to the model by `C58_words`. An involution on word sequences exchanges the first accepted fields of one vector for those of another. Uniformity of the generator itself is not expressible. |
| C59 | The challenge loop on an explicit list of numbers (`digestWords`), tied to the model by `C59_words`. A renaming of positions and values gives an injection in each direction. |
| C60 | Refuted: `C60_fails_exact`, for every N of at least 3 (draws are reduced modulo N-i). Proved instead: the exact frequency of every permutation, and that in the seven parameter sets frequencies differ by at most one part in ten thousand. |
| C61 | `LESS_verify` and `crypto_sign_open` under arbitrary key bytes: each outcome (out of bounds, 1, 0; out of bounds, 0, -1) is characterised, given that the samplers finish. `C44_every_key` shows that for the seven sets the theorems cover every key. |
| C62 | Challenges counted through a bijection with choices of places and values; with C59 the count bounds how often any one challenge comes out. |
| C63 | The verifier's recomputation (`RoundCommit`) under a strategy given as a function; counting as in C62, then the extractor of C12. `C63_honest_prover` builds the strategy of the key's owner. That the generator output is uniform is an assumption about SHAKE and not modelled. |
| C64 | The loops on given words (`randOn`, `digestWords`, tied to the model by C58 and C59): a potential argument, by induction on the number of words. |
| C65 | The history of C45 with a ledger of the bytes each call is to take, kept from the calls alone; an invariant over the calls ties the two. `C65_reuse_reveals` applies the extractor of C12 to two signatures with one ephemeral seed. |
| C66 | Calls as programs of draws; a state machine of calls in flight, one event per statement. An invariant over all event lists (every call has been fed stretches of the stream, one call at most inside) gives the locked case; explicit schedules, for every seed, key and message, refute the unlocked one. |
| C67 | Congruence of the verifier in what `expand_to_rref` reads gives the twins (for every key and every input); the specification of acceptance (C09) and the extractor (C12) give what remains true. |
| C68 | `Spec/Oracle.lean` defines programs that ask a table, `Spec/Forger.lean` the game: the hash of the commitments and the expansion of a digest into a challenge are tables, all other uses of Keccak (seeds, matrices, monomials) stay as they are. `C68_game_is_verification` shows that with the tables of the code the game accepts exactly what `LESS_verify` accepts. The bound counts tables (`hits_le`: the answers to new questions are equally frequent), then C62 (guessing) and C12 (extractor). The attacker sees no signatures of others; for attackers who do see C81. |
| C69 | `platformInitial` is the zero-initialised global of `rng.c`. `C69_fails_unseeded` holds for every fuel and every stale memory, so for every process; the bytes are computed with the FIPS 202 permutation of `Spec/Keccak`. `C69_seeded_partial` compares the SHAKE streams of the seeds; `C69_states_differ` runs the generators of two seeds backwards (see C96). |
| C70 | The test functions of `less_test.c` are modelled with the values they return; each theorem is of the form `Reports x v`: no undefined behaviour, and if it terminates the returned value is the one for success. `rref_any` shows that elimination ignores the stale flags, so the repeated draws of `rndFullRank` end in a full-rank matrix. |
| C71 | `Model/Alias` puts `m` and `sm` into one memory and follows the order of the copy, the salt and the absorption of the message. `alias_sign_eq` and `alias_open_eq` reduce both calls to calls with separate buffers on the bytes that are really read; the refutations then use the argument of C10/C11. The keys do not overlap with the buffers. |
| C72 | `Spec/Domain` lists the strings a signer expands; `C72_expanded` ties them to `LESS_sign`. The separation is by length and injectivity of the encodings; the refutation builds, for every parameter set, a challenge and stored seeds that put one seed into two nodes. |
| C73 | `Model/SecretTrace` records the accesses of the three functions applied to private monomials, inside `LESS_keygen` and the responses of `LESS_sign`; refinement theorems show that dropping the record gives the model. Refuted: a function of the record alone (`writtenTo`) returns the private permutations; the coefficients then lie in a linear space computed from public data, each of whose zero-free members is a usable key. Partial: nothing else of the monomial shows in these accesses. Not recorded: sampling, the exchange loop of the shuffle, row reduction, compression, Keccak. |
| C74 | `Model/Print` produces the printed text; `Spec/Numbers` reads all numbers out of a text, without knowing how it was made. The texts are cut into digits and non-digits (`Holds`). The expanded form is compared with `Monomial.mat`, the matrix of C20. |
| C75 | `Model/Bench` with any clock. The accumulated mean and sum of squares are compared with `average` and `sampleVariance` of `Spec/Statistics` by induction on the list. The verdict follows from C01 and C05 through loop invariants; the refutation uses C24. |
| C76 | `Model/ParamScript`; the number of published seeds is that of `Spec/SeedTree`. Upper bound by counting the ancestors of the withheld leaves level by level; each level has at most min(ω, 2^l). The bound is met by withholding the leaves whose numbers are the bit reversals of 0, …, ω−1, which gives the refutation for powers of two. |
| C77 | `Model/MemBench`. The round loop on a signature with a zero first response never reaches its end (loop invariant: only rounds without response so far). The other two programs by loop invariants, C01 and C05. |
| C78 | `Model/KeccakAsm`: the instructions as data, an interpreter over any type of lanes. The code of a round is evaluated on terms by computation (all registers symbolic), the result is brought into the form of θ, ρ, π, χ (rotations from shifts and addition bit by bit, order of the additions), then induction on the rounds. The refutation evaluates the portable permutation of the zero state. |
| C79 | `Model/KeccakBytes`, state as 200 bytes. One lemma for the common way through head, lanes and tail (`walkBytes_wp`), with the bytes processed so far as invariant, used for each function; the table is a bijection. |
| C80 | `Model/KeccakBytes`, state as 25 lanes. The masked additions of 21 and 17 lanes are evaluated bit by bit, the rounds are those of C78, induction on the number of blocks; the result is also compared with the absorbing phase of FIPS 202. |
| C81 | `Spec/Chosen.lean` adds signatures of chosen messages to the game of C68. `Props/Chosen` takes the signer from the code: commitments by `prepare_digest_input`, responses by `signerView` (C57); `C81_signer` shows that a run of `LESS_sign` is a run of it. Idealised: the monomials of a signature are drawn uniformly instead of expanded from the seed tree, and a round with challenge 0 shows the monomial instead of seeds (that seeds do as well is an assumption about SHAKE). `hop` replaces the signer by the simulator of C57, which draws the digest and the numbers first and then fixes the tables to fit; the loss is one part in N for each signature, when salt or digest meet something already fixed. `sim_le` bounds the success against the simulator if no two runs answer different challenges to one string: a digest of a signed message does not help because the string contains the message. Both are inductions on the program with averages over answers (`avg`), which `card_avg` turns into counts of tables. New messages only: a second signature of a signed message is easy to make (C11). |
| C82 | `Spec/Rewind.lean` defines `rewind`, which runs a program twice; `C82_two_runs` shows that both are runs of the same program whose answers agree up to the named question, `C82_questions` that they ask at most twice as much. `Proofs/Rewind.lean` proves the forking lemma for any program that asks no question twice: `pointed` is the chance that the result points to a question, `Splits` says that two answers to it rarely lead to results that do not fit, and `both_ge` (induction on the program, Cauchy-Schwarz at each question) gives the chance `a²/q - a/N`. `Proofs/RewindBound.lean` applies it: a forgery points to the question that drew its challenge (`sim_points`, but for one part in N for each question), and two challenges drawn there differ but for one part in N (C62). Same idealisations as C81. |
| C83 | `Spec/SeedGame.lean` defines two games over any kind of seeds and streams: in `treePlay` all seeds come from a root by the tables, in `drawnPlay` every node has its own. `Proofs/SeedGame.lean` couples them: `swap` exchanges the drawn seeds with the table entries they belong to, is injective where no two inner nodes have the same seed, and the games go the same way unless a seed is asked that is not shown; these questions do not depend on the seed (`early_setSeed`), so they hit it rarely. `C83_signature` ties the game to a run of `LESS_sign`. The number of a node is not part of the string it is expanded from (C72), so one question can hit any of the L - 1 inner nodes: this costs the factor L - 1. Idealised: the two expansions are independent tables for each salt (C72 shows that the strings differ, C56 how often salts repeat); the loss is only counted for seeds, not for what a stream gives away about its monomial. |
| C84 | `Model/ByteOrder.lean` repeats the functions that store pseudorandom bytes into words (and those that call them) with the byte order as an argument; `C84_little_endian` shows that the little-endian ones are the model of all other claims. `Proofs/ByteOrder.lean` shows for either order that the expansions are well formed and do not depend on old memory, `Proofs/ByteOrderScheme.lean` carries this through key generation, signing and verification to `C84_same_order_partial`. The claim is false across byte orders: `Proofs/BigData.lean` to `BigRun.lean` evaluate, step by step in the kernel, a big-endian check of the small run of `Proofs/ToyRun` (`C84_fails_verify`) and big-endian key generation from the same random bytes (`C84_fails_keys`). |
| C85 | `Model/Vec.lean` and `Model/VecMore.lean` model the macros of `macro.h` on 32 bytes. `C85_permute2`, `C85_shift` and `C85_shuffle` say exactly for which arguments AVX2 and NEON agree, `C85_reduce8` and `C85_reduce_rows` exactly for which bytes the reductions are remainders, `C85_reduce16_partial` up to which lane the 16-bit one is. The claim is false as stated (`C85_fails_*`); the uses in `codes.c` are within these domains (C38 to C40). |
| C86 | `Model/InPlace.lean` repeats the loops of the operations with the reads of the shared argument taken from the memory being written. `C86_product_over_first`, `C86_product_over_second`, `C86_inverse_over`, `C86_action_over` and `C86_generator_over` determine exactly when the result is right: equal numbers along the moves of the second factor, a diagonal first factor, a permutation of order two with mutually inverse numbers, equal numbers along the selected moves, a diagonal matrix. The claim is false as stated (`C86_fails_overwrite`); `LESS.c` passes separate memory everywhere. |
| C87 | `Model/SortCost.lean` is the sort with counters; `C87_same` removes them. `C87_bounds` holds for every array of bytes: exact number of calls, bounds on nested calls, comparisons and exchanges, by induction over the recursion with the exact cost of a partition (`m + 1` or `m + 2` comparisons). `C87_in_order` and `C87_attained` show that columns in order reach the bound on nested calls and miss the one on comparisons by at most one per column. |
| C88 | `Model/FqVariants.lean` models the two versions of `fq_red` between `#if 0` and `#endif`. `C88_barrett_partial` and `C88_barrett_products` give the range in which Barrett's is right, `C88_mersenne` exactly when the loop of the other one ends, `C88_mersenne_value` its result. False as stated (`C88_fails_*`). |
| C89 | `Model/Debug.lean` is signing and opening with the assertion of `prepare_digest_input` in place (reference and optimized code); a run may end in an abort. `C89_sign`, `C89_open`, `C89_sign_optimized`, `C89_open_optimized`: no abort and the results of the release build, for all inputs, as the matrix comes from a seed and has full rank. `C89_rank`: when a direct call aborts. The assertions of the samplers compare two constants of the build, those of the test program are not modelled here. |
| C90 | `Model/VerifyCost.lean` is opening with a counter for the work of its sorts. `C90_same`: counting changes nothing. `C90_bounds`: an upper bound for all keys and signed messages. `C90_accepted`: the exact number of calls of an accepted message. `C90_hostile`: an explicit public code `[I \| V]` and the identity response for which all `W` rounds with a response cost `(n - 1)(n + 4)/2` comparisons and `n` nested calls; verification returns whenever its samplers finish. Only the work of the sorts is counted. |
| C91 | `C91_refused_iff`: an honest signed message is refused exactly if the random numbers drawn from its digest lead to a challenge publishing `MAX_PUBLISHED_SEEDS` seeds. `C91_words`: among the sequences of `k` numbers that determine a challenge, for every `k`, the share publishing `x` seeds is that among the `W`-subsets of the rounds (challenges are equally likely, C59). `C91_distribution` counts these subsets for every parameter set and every `x` by the generating function of the number of ancestors in the tree (`Proofs/SeedCount.lean`), a recursion over its depth that the kernel evaluates for the two sets concerned (`C91_balanced`, `C91_intermediate`); `C91_others` for the other five. `C91_rate_intermediate`, `C91_rate_balanced` give the share to within one unit of its inverse. That the numbers drawn from a digest are uniform is not claimed: it is a statement about Keccak. |
| C92 | `C92_least`: at height `j` there are at least `W / 2^j` (rounded up) nodes above the withheld rounds, with equality for the first `W` rounds. `C92_largest`: an explicit set of rounds (`spreadOut`) has as many nodes above it as fit at every height at once, so the bound used since C15 is exact for every well-formed parameter set. `C92_reached`: both come up. `C92_total`, `C92_words`, `C92_average`: the average by counting, for every node, the sets of rounds it is not above. `C92_lengths` ties the numbers to `crypto_sign`; `C92_table` evaluates them for the seven sets. |
| C93 | A list of calls on the memory-level context of C53, run one after the other. `C93_safe_partial` by induction over the list with the invariant that the position is below the rate; `C93_reuse` because initialising determines all 26 words. The last part is false: `C93_fails_early_squeeze` gives the message bytes that come out without `finalize`, `C93_fails_finalize_twice` shows that the padding is undone. The library itself always calls in the intended order (C53, C54). |
| C94 | `Model/SignCost`: `LESS_sign` and `crypto_sign` with the counting sort of C87; `C94_same` shows that dropping the counts gives the model. Bounds by a loop invariant. `C94_independent` runs two calls in step: the matrix that is sorted in a round is determined by the public seed and the round's leaf (`prepare_sorted`, uniqueness of the reduced form). The work does depend on the ephemeral seed. |
| C95 | A world of calls (as in C45) is copied; a copy may seed the generator first (`World.copy`). The position of every draw is computed from the calls alone (`taken`), by induction over the calls. Copies without a new seed read the same stretch; the extractor of C12 then gives the monomials. |
| C96 | `Spec/KeccakInv` undoes the steps of FIPS 202; θ by adding shifted parities (applying the shift twice doubles it, and 64 is 0). `unpermute_permute` carries this to the lanes of the library. `unsqueeze` walks a sponge backwards, byte by byte; the states of a history are those after drawing `taken` bytes (`World.run_rng`). The maps follow with the extractor of C12 from the response and the ephemeral monomial. `Model/KeyContext` keeps the context of the key expansion; other local variables are not followed. |
| C97 | Two parameter sets with the same category, length and dimension (`SameCodes`) and any other numbers; the runs of `crypto_sign_keypair` of the two sets are compared by way of their specifications, which read only the common numbers and bound the codes by the number of key pairs. A small set with three key pairs, and one with less room for seeds, are run from one state (`Props/SetCases`). Whether a signed message of one set could open with another set is a question about the hash and is not decided. |
| C98 | `Model/Interrupt` is `LESS_sign` and `crypto_sign` with a record of the output and the generator after every step that writes; without the record it is the model of signing (`C98_same`, `C98_same_sign`). `Progress.view` makes the contents at a moment from the earlier contents and the finished signature alone, and the record is the list of these views (`C98_moments`); the claim on bytes and the claim on the generator follow. Steps: a copied seed, a packed response, the salt, the digest, the clearing of the storage, the copy of the message; a moment inside one of them, or inside the generator, is not modelled, and calls that never return have no record. |
| C99 | `lessKeygenI` and `cryptoSignKeypairI` (`Model/Interrupt`) are key generation with a record of both buffers and the generator after every step that writes: the two draws, the copy of the seed, each packed code; without the record it is the model of key generation (`C99_same`; what the buffer of the public key held is the uninitialised memory of that model). `keyMoments` makes the moments from the old and the new keys alone. The claim that the keys belong together is refuted for every call whose new seed differs from the old one (`C99_fails_pair`). Moments inside a draw or inside the packing of one code are not modelled. |
| C100 | `lessSignF` (`Model/Fault`) is `LESS_sign` in which any of the flags `indices_to_publish` are changed before `seed_tree_path` reads them; without a change it is `LESS_sign` (`C100_same`). The disturbed run is compared with the undisturbed one, from which only the seed storage differs (`faulted`); `Revealed` lets the verifier's own function rebuild the seed, and the secret follows with the extractor of C12. That there is room for the seeds if one leaf fewer is withheld is shown for the seven sets. `lessSignR` disturbs the challenge before the loop of the responses instead; with one entry too many no run returns (`C100_fails_bounds`), because a run that returns has counted its writes (`responses_fit`), and it ends in an access out of bounds rather than without end (`C100_fails_oob`, by showing that no part of the loop runs out of fuel). `Props/FaultChallenge` runs the loop for any challenge with room for its responses (`disturbed`): it returns exactly then (`C100_returns_iff`), and if a round of which the seed is published gets a response, the extractor of C12 gives the secret map (`C100_fails_moved`). Disturbances of other variables or of the control flow are not modelled. |
