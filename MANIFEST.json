{
 "claims": [
  {
   "property": "C01",
   "status": "proved",
   "theorems": [
    "Fhe.Props.C01_modulus_new"
   ],
   "note": "both build configurations"
  },
  {
   "property": "C02",
   "status": "proved",
   "theorems": [
    "Fhe.Props.C02_reduce",
    "Fhe.Props.C02_reduce_u128",
    "Fhe.Props.C02_lazy_reduce"
   ],
   "note": ""
  },
  {
   "property": "C03",
   "status": "proved",
   "theorems": [
    "Fhe.Props.C03_opt_reduction",
    "Fhe.Props.C03_flag"
   ],
   "note": "the flag itself is characterised by C03_flag"
  },
  {
   "property": "C04",
   "status": "proved",
   "theorems": [
    "Fhe.Props.C04_field_ops",
    "Fhe.Props.C04_ring"
   ],
   "note": ""
  },
  {
   "property": "C05",
   "status": "proved",
   "theorems": [
    "Fhe.Props.C05_shoup"
   ],
   "note": ""
  },
  {
   "property": "C06",
   "status": "proved",
   "theorems": [
    "Fhe.Props.C06_vec_binary",
    "Fhe.Props.C06_vec_unary",
    "Fhe.Props.C06_vec_shoup"
   ],
   "note": ""
  },
  {
   "property": "C07",
   "status": "proved",
   "theorems": [
    "Fhe.Props.C07_reduce_i64",
    "Fhe.Props.C07_center",
    "Fhe.Props.C07_center_reduce",
    "Fhe.Props.C07_vec",
    "Fhe.Props.C07_center_doc_counterexample"
   ],
   "note": "documented interval of center is refuted by C07_center_doc_counterexample; the true interval is proved"
  },
  {
   "property": "C08",
   "status": "proved",
   "theorems": [
    "Fhe.Props.C08_pow",
    "Fhe.Props.C08_inv"
   ],
   "note": "is_prime is modelled as primality"
  },
  {
   "property": "C09",
   "status": "proved",
   "theorems": [
    "Fhe.Props.C09_generate_prime",
    "Fhe.Props.C09_generate_prime_out_of_range",
    "Fhe.Props.C09_upper_bound_zero_panics"
   ],
   "note": "is_prime is modelled as primality; upper_bound = 0 underflows (C09_upper_bound_zero_panics), in release builds see C83_generate_prime"
  },
  {
   "property": "C10",
   "status": "proved",
   "theorems": [
    "Fhe.Props.C10_transcode_bytes",
    "Fhe.Props.C10_round_trip"
   ],
   "note": "usize overflow of len*nbits is a hypothesis"
  },
  {
   "property": "C11",
   "status": "proved",
   "theorems": [
    "Fhe.Props.C11_transcode_bidirectional",
    "Fhe.Props.C11_round_trip"
   ],
   "note": ""
  },
  {
   "property": "C12",
   "status": "proved",
   "theorems": [
    "Fhe.Props.C12_sample_vec_cbd",
    "Fhe.Props.C12_error",
    "Fhe.Props.C12_disjoint",
    "Fhe.Props.C12_bounded",
    "Fhe.Props.C12_distribution"
   ],
   "note": "words of the generator are an arbitrary stream"
  },
  {
   "property": "C13",
   "status": "proved",
   "theorems": [
    "Fhe.Props.C13_serialize",
    "Fhe.Props.C13_deserialize_range",
    "Fhe.Props.C13_deserialize_not_reduced"
   ],
   "note": "C13_deserialize_not_reduced: deserialization does not reduce"
  },
  {
   "property": "C14",
   "status": "proved",
   "theorems": [
    "Fhe.Props.C14_forward",
    "Fhe.Props.C14_points"
   ],
   "note": "native backend (not the tfhe-ntt feature)"
  },
  {
   "property": "C15",
   "status": "proved",
   "theorems": [
    "Fhe.Props.C15_inverse",
    "Fhe.Props.C15_backward_reduced"
   ],
   "note": "native backend"
  },
  {
   "property": "C16",
   "status": "proved",
   "theorems": [
    "Fhe.Props.C16_product"
   ],
   "note": "native backend"
  },
  {
   "property": "C17",
   "status": "proved",
   "theorems": [
    "Fhe.Props.C17_vt",
    "Fhe.Props.C17_lazy_inputs"
   ],
   "note": "native backend"
  },
  {
   "property": "C18",
   "status": "proved",
   "theorems": [
    "Fhe.Props.C18_bad_size",
    "Fhe.Props.C18_unsupported",
    "Fhe.Props.C18_supported"
   ],
   "note": "random draws are an explicit stream; is_prime is primality"
  },
  {
   "property": "C19",
   "status": "proved",
   "theorems": [
    "Fhe.Props.C19_new_ok",
    "Fhe.Props.C19_new_error"
   ],
   "note": "num_bigint_dig mod_inverse / extended_gcd are modelled by their contracts"
  },
  {
   "property": "C20",
   "status": "proved",
   "theorems": [
    "Fhe.Props.C20_project",
    "Fhe.Props.C20_lift",
    "Fhe.Props.C20_round_trip",
    "Fhe.Props.C20_hom"
   ],
   "note": "BigUint is Nat"
  },
  {
   "property": "C21",
   "status": "proved",
   "theorems": [
    "Fhe.Props.C21_scale",
    "Fhe.Props.C21_exact",
    "Fhe.Props.C21_centered",
    "Fhe.Props.C21_room",
    "Fhe.Props.C21_overflow_counterexample"
   ],
   "note": "size bounds: at most 64 source moduli and Spec.scalerRoom <= 2^65; without the latter the code is wrong (C21_overflow_counterexample)"
  },
  {
   "property": "C22",
   "status": "proved",
   "theorems": [
    "Fhe.Props.C22_new",
    "Fhe.Props.C22_level",
    "Fhe.Props.C22_niterations"
   ],
   "note": "the pseudo-random stream of the generator search is a parameter of the build; a supported modulus must have a non-square among its first 100 values"
  },
  {
   "property": "C23",
   "status": "proved",
   "theorems": [
    "Fhe.Props.C23_represents",
    "Fhe.Props.C23_add_sub_neg",
    "Fhe.Props.C23_mul",
    "Fhe.Props.C23_scalar",
    "Fhe.Props.C23_change",
    "Fhe.Props.C23_context",
    "Fhe.Props.C23_context_mul",
    "Fhe.Props.C23_ring"
   ],
   "note": "C23_context: mismatching contexts panic with debug assertions; without them: C83"
  },
  {
   "property": "C24",
   "status": "proved",
   "theorems": [
    "Fhe.Props.C24_exponent",
    "Fhe.Props.C24_substitute",
    "Fhe.Props.C24_automorphism"
   ],
   "note": "degrees up to 2^31 (above, the running power overflows)"
  },
  {
   "property": "C25",
   "status": "proved",
   "theorems": [
    "Fhe.Props.C25_inverse_power"
   ],
   "note": "panics for k > 2N with overflow checks; without them: C83_inverse_power"
  },
  {
   "property": "C26",
   "status": "proved",
   "theorems": [
    "Fhe.Props.C26_switch_down",
    "Fhe.Props.C26_switch_down_to",
    "Fhe.Props.C26_rounding"
   ],
   "note": ""
  },
  {
   "property": "C27",
   "status": "proved",
   "theorems": [
    "Fhe.Props.C27_dot_product",
    "Fhe.Props.C27_errors"
   ],
   "note": "no bound on the number of terms"
  },
  {
   "property": "C28",
   "status": "proved",
   "theorems": [
    "Fhe.Props.C28_total",
    "Fhe.Props.C28_roundtrip",
    "Fhe.Props.C28_reject",
    "Fhe.Props.C28_not_reduced"
   ],
   "note": "the bytes themselves: C62; C28_not_reduced: residues are not checked when reading"
  },
  {
   "property": "C29",
   "status": "proved",
   "theorems": [
    "Fhe.Props.C29_u64",
    "Fhe.Props.C29_u64_roundtrip",
    "Fhe.Props.C29_u64_raw",
    "Fhe.Props.C29_i64",
    "Fhe.Props.C29_big",
    "Fhe.Props.C29_read"
   ],
   "note": "C29_u64_raw: a list of (number of moduli)*degree words is taken unreduced"
  },
  {
   "property": "C30",
   "status": "proved",
   "theorems": [
    "Fhe.Props.C30_timed",
    "Fhe.Props.C30_arithmetic",
    "Fhe.Props.C30_default",
    "Fhe.Props.C30_other"
   ],
   "note": ""
  },
  {
   "property": "C31",
   "status": "proved",
   "theorems": [
    "Fhe.Props.C31_sound",
    "Fhe.Props.C31_rejects",
    "Fhe.Props.C31_complete",
    "Fhe.Props.C31_no_panic",
    "Fhe.Props.C31_levels",
    "Fhe.Props.C31_defaults",
    "Fhe.Props.C31_table",
    "Fhe.Props.C31_defaults_exact",
    "Fhe.Props.C31_defaults_build",
    "Fhe.Props.C31_defaults_lines"
   ],
   "note": "Built parameters satisfy the documented conditions, generated moduli have the requested sizes, invalid requests yield errors, valid requests with up to 31 moduli succeed (given enough 62-bit primes and nonsquares in the random stream), the level tables are consistent, and the predefined sets come from the table."
  },
  {
   "property": "C32",
   "status": "proved",
   "theorems": [
    "Fhe.Props.C32_roundtrip",
    "Fhe.Props.C32_rejects"
   ],
   "note": "Round trip at the level of the protobuf message; the bytes themselves: C62. Invalid messages yield errors."
  },
  {
   "property": "C33",
   "status": "proved",
   "theorems": [
    "Fhe.Props.C33_index_map"
   ],
   "note": "The index map is a permutation and visits the exponents 3^i and -3^i."
  },
  {
   "property": "C34",
   "status": "proved",
   "theorems": [
    "Fhe.Props.C34_available",
    "Fhe.Props.C34_simd",
    "Fhe.Props.C34_slotwise",
    "Fhe.Props.C34_unavailable"
   ],
   "note": "SIMD slots: encode/decode round trip for the u64 and BigUint encoders at every level whose modulus is at least t; slots of any held message; injectivity; slotwise ring operations; availability of the operator exactly for primes 1 mod 2N (up to unlucky random draws)."
  },
  {
   "property": "C35",
   "status": "proved",
   "theorems": [
    "Fhe.Props.C35_poly",
    "Fhe.Props.C35_decode",
    "Fhe.Props.C35_signed",
    "Fhe.Props.C35_signed_panics",
    "Fhe.Props.C35_errors",
    "Fhe.Props.C35_unreduced",
    "Fhe.Props.C35_zero",
    "Fhe.Props.C35_not_reduced"
   ],
   "note": "Coefficient encoders and decoders (u64, BigUint, i64), error cases, the zero plaintext. Limits proved: values are not reduced modulo t, and signed decoding of a coefficient beyond 64 bits panics."
  },
  {
   "property": "C36",
   "status": "proved",
   "theorems": [
    "Fhe.Props.C36_scaling"
   ],
   "note": "toPoly has coefficients floor(Q m / t) at every level with t <= Q."
  },
  {
   "property": "C37",
   "status": "proved",
   "theorems": [
    "Fhe.Props.C37_secret_key",
    "Fhe.Props.C37_decrypt",
    "Fhe.Props.C37_encrypt",
    "Fhe.Props.C37_roundtrip",
    "Fhe.Props.C37_public_key",
    "Fhe.Props.C37_public_encrypt",
    "Fhe.Props.C37_public_encrypt_top",
    "Fhe.Props.C37_public_roundtrip",
    "Fhe.Props.C37_fast_path_wrong"
   ],
   "note": "Keys, encryption (secret and public), decryption and round trips with explicit noise bounds. C37_fast_path_wrong proves that accepted parameters with q0 <= t < 2^62 never decrypt zero correctly; Reliable excludes them."
  },
  {
   "property": "C38",
   "status": "proved",
   "theorems": [
    "Fhe.Props.C38_add",
    "Fhe.Props.C38_sub",
    "Fhe.Props.C38_neg",
    "Fhe.Props.C38_plain",
    "Fhe.Props.C38_mul_plain",
    "Fhe.Props.C38_zero"
   ],
   "note": "Exact noise after each operation; the empty ciphertext is neutral."
  },
  {
   "property": "C39",
   "status": "proved",
   "theorems": [
    "Fhe.Props.C39_mul",
    "Fhe.Props.C39_bound",
    "Fhe.Props.C39_zero",
    "Fhe.Props.C39_mismatch",
    "Fhe.Props.C39_strategy_new",
    "Fhe.Props.C39_strategy",
    "Fhe.Props.C39_steps",
    "Fhe.Props.C39_enable",
    "Fhe.Props.C39_default",
    "Fhe.Props.C39_strategy_rejects"
   ],
   "note": "Ciphertext * Ciphertext at every level with the exact noise identity and an explicit bound; the empty operand; mismatches; Multiplicator: every sound strategy, the default one (which never runs out of primes), relinearization and switching as further steps, rejection of bad operands."
  },
  {
   "property": "C40",
   "status": "proved",
   "theorems": [
    "Fhe.Props.C40_new",
    "Fhe.Props.C40_key_switch",
    "Fhe.Props.C40_mismatch",
    "Fhe.Props.C40_new_mismatch"
   ],
   "note": "new and key_switch/key_switch_assign, RNS and digit gadgets; a one-modulus key for a multi-modulus ciphertext level (which the public API cannot request usefully) is excluded by hypothesis"
  },
  {
   "property": "C41",
   "status": "proved",
   "theorems": [
    "Fhe.Props.C41_new",
    "Fhe.Props.C41_relinearize",
    "Fhe.Props.C41_seed",
    "Fhe.Props.C41_rejects"
   ],
   "note": "for key levels at or above (index at most) the ciphertext level and at most 64 moduli"
  },
  {
   "property": "C42",
   "status": "proved",
   "theorems": [
    "Fhe.Props.C42_rotate",
    "Fhe.Props.C42_new",
    "Fhe.Props.C42_galois",
    "Fhe.Props.C42_rejects",
    "Fhe.Props.C42_slots"
   ],
   "note": "Galois keys of every odd exponent; rotations through evaluation keys; stated on decoded slot vectors."
  },
  {
   "property": "C43",
   "status": "proved",
   "theorems": [
    "Fhe.Props.C43_inner_sum"
   ],
   "note": "Stated on decoded slot vectors, with the noise bound N V + (N-1) t B."
  },
  {
   "property": "C44",
   "status": "proved",
   "theorems": [
    "Fhe.Props.C44_expand",
    "Fhe.Props.C44_constant"
   ],
   "note": "Every size from 1 to N; exact message of each output, with the noise bound 2^l V + (2^l-1) t B."
  },
  {
   "property": "C45",
   "status": "proved",
   "theorems": [
    "Fhe.Props.C45_encrypt",
    "Fhe.Props.C45_encrypt_rejects",
    "Fhe.Props.C45_product",
    "Fhe.Props.C45_bound",
    "Fhe.Props.C45_panics"
   ],
   "note": "RGSW encryption yields two key-switching keys holding m and m*s (C45_encrypt), exact rejections (C45_encrypt_rejects), the external product encrypts the product of the messages for every valid pair (C45_product) with an explicit noise bound (C45_bound); C45_panics states the panicking cases."
  },
  {
   "property": "C46",
   "status": "proved",
   "theorems": [
    "Fhe.Props.C46_switch_down",
    "Fhe.Props.C46_switch_down_bound",
    "Fhe.Props.C46_last",
    "Fhe.Props.C46_switch_to_level",
    "Fhe.Props.C46_rejects"
   ],
   "note": "Exact noise identity and bound; errors at the last level, for going up and beyond the last level."
  },
  {
   "property": "C47",
   "status": "proved",
   "theorems": [
    "Fhe.Props.C47_roundtrip",
    "Fhe.Props.C47_wellFormed",
    "Fhe.Props.C47_rejects",
    "Fhe.Props.C47_total",
    "Fhe.Props.C47_relinearized_seed",
    "Fhe.Props.C47_seed_lost"
   ],
   "note": "Round trip for well-formed ciphertexts; rejection and shape of accepted messages. Stated on the protobuf messages; the bytes themselves: C62 and C82."
  },
  {
   "property": "C48",
   "status": "proved",
   "theorems": [
    "Fhe.Props.C48_validate",
    "Fhe.Props.C48_decrypt",
    "Fhe.Props.C48_mismatch",
    "Fhe.Props.C48_new",
    "Fhe.Props.C41_rejects",
    "Fhe.Props.C42_rejects",
    "Fhe.Props.C39_strategy_rejects",
    "Fhe.Props.C49_rejects"
   ],
   "note": "validate_for, decryption, infix operators (which panic by contract), relinearization (C41_rejects), Galois keys (C42_rejects), Multiplicator (C39_strategy_rejects), dot product (C49_rejects)."
  },
  {
   "property": "C49",
   "status": "proved",
   "theorems": [
    "Fhe.Props.C49_sum",
    "Fhe.Props.C49_noise",
    "Fhe.Props.C49_naive",
    "Fhe.Props.C49_rejects"
   ],
   "note": "For every number of terms, on both sides of the accumulator threshold; equality with the operators; exact error conditions."
  },
  {
   "property": "C50",
   "status": "proved",
   "theorems": [
    "Fhe.Props.C50_new",
    "Fhe.Props.C50_build",
    "Fhe.Props.C50_operations"
   ],
   "note": "Any sequence of builder requests; supports_* true iff the operation succeeds on accepted ciphertexts, otherwise error unsupported."
  },
  {
   "property": "C51",
   "status": "proved",
   "theorems": [
    "Fhe.Props.C51_crp",
    "Fhe.Props.C51_public_key",
    "Fhe.Props.C51_other_level",
    "Fhe.Props.C51_no_shares",
    "Fhe.Props.C51_results",
    "Fhe.Props.C51_first_crp"
   ],
   "note": "Shares of any number of parties, in any order, aggregate to the same public key: an encryption of zero under the joint secret with noise t times the sum of the errors. Limitations proved: only the first share's random polynomial is used, and one of another level panics in debug builds (release builds: C83_public_key)."
  },
  {
   "property": "C52",
   "status": "proved",
   "theorems": [
    "Fhe.Props.C52_relinearization_key",
    "Fhe.Props.C52_rejects",
    "Fhe.Props.C52_rejects_rounds"
   ],
   "note": "Both rounds for any number of parties and any order of the shares; the result meets the specification of a relinearization key for the joint secret with an explicit error bound, so C41 applies to it."
  },
  {
   "property": "C53",
   "status": "proved",
   "theorems": [
    "Fhe.Props.C53_secret_key_switch",
    "Fhe.Props.C53_secret_rejects",
    "Fhe.Props.C53_decrypt",
    "Fhe.Props.C53_public_key_switch",
    "Fhe.Props.C53_public_rejects",
    "Fhe.Props.C53_public_ignores_rest",
    "Fhe.Props.C53_end_to_end"
   ],
   "note": "Secret-key switch, public-key switch and threshold decryption for any number of parties and any order; from key generation to decryption in C53_end_to_end. Limitation proved: the public-key switch ignores parts beyond the second."
  },
  {
   "property": "C54",
   "status": "proved",
   "theorems": [
    "Fhe.Props.C54_vector"
   ],
   "note": "Chunk count, each chunk's decoding, and the concatenation, for every length and encoding kind."
  },
  {
   "property": "C55",
   "status": "proved",
   "theorems": [
    "Fhe.Props.C55_secret_key",
    "Fhe.Props.C55_public_key",
    "Fhe.Props.C55_public_key_total",
    "Fhe.Props.C55_relin_total",
    "Fhe.Props.C55_relin_roundtrip",
    "Fhe.Props.C55_relin_generated",
    "Fhe.Props.C55_galois_total",
    "Fhe.Props.C55_galois_roundtrip",
    "Fhe.Props.C55_galois_generated",
    "Fhe.Props.C55_evaluation_total",
    "Fhe.Props.C55_evaluation_roundtrip",
    "Fhe.Props.C55_evaluation_generated",
    "Fhe.Props.C55_rgsw_total",
    "Fhe.Props.C55_rgsw_roundtrip",
    "Fhe.Props.C55_rgsw_generated",
    "Fhe.Props.C55_relin_rejects",
    "Fhe.Props.C55_nested",
    "Fhe.Props.C55_unchecked_base"
   ],
   "note": "Secret, public, relinearization, Galois, evaluation keys and RGSW ciphertexts: round trips, totality on arbitrary decoded messages, rejections. C55_unchecked_base: the decomposition base of a message is not checked, so an accepted key can make relinearization panic. Stated on the protobuf messages; the bytes themselves: C62 and C82."
  },
  {
   "property": "C56",
   "status": "proved",
   "theorems": [
    "Fhe.Props.C56_inverse"
   ],
   "note": "the extended gcd of num-bigint-dig is a parameter with an explicit contract"
  },
  {
   "property": "C57",
   "status": "proved",
   "theorems": [
    "Fhe.Props.C57_scale",
    "Fhe.Props.C57_errors"
   ],
   "note": "room hypothesis as in C21"
  },
  {
   "property": "C58",
   "status": "proved",
   "theorems": [
    "Fhe.Props.C58_small",
    "Fhe.Props.C58_random"
   ],
   "note": "random_vec itself (rand crate) is an arbitrary sampler of reduced rows"
  },
  {
   "property": "C59",
   "status": "proved",
   "theorems": [
    "Fhe.Props.C59_measure_noise"
   ],
   "note": "Exact."
  },
  {
   "property": "C60",
   "status": "proved",
   "theorems": [
    "Fhe.Props.C60_evaluate",
    "Fhe.Props.C60_decrypt",
    "Fhe.Props.C60_value_slots",
    "Fhe.Props.C60_slots"
   ],
   "note": "By induction on the expression, from the theorems on the single operations."
  },
  {
   "property": "C61",
   "status": "proved",
   "theorems": [
    "Fhe.Props.C61_voting",
    "Fhe.Props.C61_voting_program"
   ],
   "note": "C61_voting is for any accepted parameters with room for the noise; C61_voting_program is for the parameters written in the program and shows that they are accepted. Parsing of the command line and timing output are not modelled."
  },
  {
   "property": "C62",
   "status": "proved",
   "theorems": [
    "Fhe.Props.C62_poly",
    "Fhe.Props.C62_poly_any",
    "Fhe.Props.C62_ciphertext",
    "Fhe.Props.C62_ciphertext_any",
    "Fhe.Props.C62_secret_key",
    "Fhe.Props.C62_secret_key_any",
    "Fhe.Props.C62_public_key",
    "Fhe.Props.C62_public_key_any",
    "Fhe.Props.C62_relin",
    "Fhe.Props.C62_relin_any",
    "Fhe.Props.C62_evaluation",
    "Fhe.Props.C62_evaluation_any",
    "Fhe.Props.C62_rgsw",
    "Fhe.Props.C62_rgsw_any",
    "Fhe.Props.C62_parameters",
    "Fhe.Props.C62_parameters_any",
    "Fhe.Props.C62_unknown_fields",
    "Fhe.Props.C62_empty",
    "Fhe.Props.C62_format_error",
    "Fhe.Props.C62_format_ok",
    "Fhe.Props.C62_same_fields",
    "Fhe.Props.C62_grammar",
    "Fhe.Props.C62_grammar_error",
    "Fhe.Props.C62_grammar_same"
   ],
   "note": "Bytes are lists of numbers below 256. The hypotheses on sizes (at most 1024 moduli for keys, 2^32 for ciphertexts) keep length prefixes within 64 bits. prost and its generated code are not in /repo; the proto3 format is modelled."
  },
  {
   "property": "C63",
   "status": "proved",
   "theorems": [
    "Fhe.Props.C63_response",
    "Fhe.Props.C63_mulpir",
    "Fhe.Props.C63_generated",
    "Fhe.Props.C63_program"
   ],
   "note": "The parameters of the example itself (three moduli of 50, 55 and 55 bits) do not leave room for the worst-case bound on the noise, so the concrete theorem C63_program keeps its degree and plaintext modulus and uses the five moduli of the library's table for this degree. C63_response needs no room. The square root computed in floating point is modelled as exact."
  },
  {
   "property": "C64",
   "status": "proved",
   "theorems": [
    "Fhe.Props.C64_response",
    "Fhe.Props.C64_sealpir",
    "Fhe.Props.C64_three_moduli",
    "Fhe.Props.C64_program"
   ],
   "note": "As for C63, the parameters of the example itself do not leave room for the worst-case bound on the noise; C64_program uses its plaintext modulus with degree 8192 and three 49-bit moduli of the library's tables. C64_response needs no room. The client asks for the context of level 2 whatever the parameters, so C64_three_moduli holds."
  },
  {
   "property": "C65",
   "status": "proved",
   "theorems": [
    "Fhe.Props.C65_keys",
    "Fhe.Props.C65_weighted_plain",
    "Fhe.Props.C65_weighted_simd",
    "Fhe.Props.C65_inner_plain",
    "Fhe.Props.C65_inner_simd",
    "Fhe.Props.C65_polynomial_plain",
    "Fhe.Props.C65_polynomial_simd",
    "Fhe.Props.C65_polynomial_full",
    "Fhe.Props.C65_ops_of_last",
    "Fhe.Props.C65_ops",
    "Fhe.Props.C65_basic",
    "Fhe.Props.C65_basic_program",
    "Fhe.Props.C65_ops_program_partial",
    "Fhe.Props.C65_ops_next",
    "Fhe.Props.C65_rgsw_fails",
    "Fhe.Props.C65_rgsw",
    "Fhe.Props.C65_rgsw_program",
    "Fhe.Props.C65_ops_program"
   ],
   "note": "C65_basic/C65_basic_program: bfv_basic, general and with its own parameters. C65_weighted_plain .. C65_polynomial_full: the six sections of bfv_ops with explicit room; C65_ops the whole program, C65_ops_next with the next default parameters. With the program's own parameters: C65_ops_program_partial has, for all random choices, everything but the SIMD polynomial on vectors that do not fill all slots, where the worst case of the noise is too large; C65_ops_program has the whole program for all inputs and all but a fraction 2^-64 of the words from which four samples are made. C65_rgsw, C65_rgsw_fails, C65_rgsw_program: the products of rgsw decode correctly and its assertion fails (finding)."
  },
  {
   "property": "C66",
   "status": "proved",
   "theorems": [
    "Fhe.Props.C66_compute",
    "Fhe.Props.C66_product"
   ],
   "note": "C66_compute for every circuit and every number of parties; C66_product instantiates it at default parameters for up to 2^40 parties. Products are at level zero because the protocol makes the key only there; the multiparty protocols make no Galois keys, so rotations are excluded."
  },
  {
   "property": "C67",
   "status": "proved",
   "theorems": [
    "Fhe.Props.C67_read",
    "Fhe.Props.C67_received",
    "Fhe.Props.C67_switch",
    "Fhe.Props.C67_relinearize",
    "Fhe.Props.C67_multiply",
    "Fhe.Props.C67_evaluate",
    "Fhe.Props.C67_encrypt",
    "Fhe.Props.C67_decrypt",
    "Fhe.Props.C67_share",
    "Fhe.Props.C67_dot",
    "Fhe.Props.C67_operators",
    "Fhe.Props.C67_plain",
    "Fhe.Props.C67_rgsw",
    "Fhe.Props.C67_held",
    "Fhe.Props.C67_no_panic"
   ],
   "note": "Ciphertexts are those read from bytes or returned by any operation (inductive predicate Held); keys are those read from bytes, with the assumption that the unchecked digit base of a key of the last level is below 64 (C55_unchecked_base shows it is needed). The modelled panics are those of debug builds. C47_relinearized_seed and C47_seed_lost are the negative part on seeds."
  },
  {
   "property": "C68",
   "status": "proved",
   "theorems": [
    "Fhe.Props.C68_add",
    "Fhe.Props.C68_sub",
    "Fhe.Props.C68_plain",
    "Fhe.Props.C68_mul_plain",
    "Fhe.Props.C68_sum",
    "Fhe.Props.C68_mul",
    "Fhe.Props.C68_congr"
   ],
   "note": "For ciphertexts that can be used (an existing level, at least two parts, valid polynomials); results without seeds. Multiplication needs at most 31 moduli with sum at most 2^65, as C39."
  },
  {
   "property": "C69",
   "status": "proved",
   "theorems": [
    "Fhe.Props.C69_secret",
    "Fhe.Props.C69_public",
    "Fhe.Props.C69_one_mask"
   ],
   "note": "Assumes t <= Q at the level of the plaintext, as C36. Nothing is claimed about the distribution of the mask: computational security is not modelled."
  },
  {
   "property": "C70",
   "status": "proved",
   "theorems": [
    "Fhe.Props.C70_public_key",
    "Fhe.Props.C70_secret_switch",
    "Fhe.Props.C70_decryption",
    "Fhe.Props.C70_public_switch",
    "Fhe.Props.C70_relin",
    "Fhe.Props.C70_honest"
   ],
   "note": "Arbitrary valid shares, equality of the results. C70_honest is about the shares of public keys and secret-key switching; for those of relinearization keys and of switching to a public key the same is part of C52 and C53. Shares that name different ciphertexts or common polynomials are outside the theorem: aggregation then takes those of the first share (C51_first_crp)."
  },
  {
   "property": "C71",
   "status": "proved",
   "theorems": [
    "Fhe.Props.C71_independent",
    "Fhe.Props.C71_secret_key",
    "Fhe.Props.C71_moments"
   ],
   "note": "Exact counts over all choices of the words. The generator itself (ChaCha) is a parameter: uniformity of its words is the assumption under which the counts are probabilities."
  },
  {
   "property": "C72",
   "status": "proved",
   "theorems": [
    "Fhe.Props.C72_parameters",
    "Fhe.Props.C72_secret_key",
    "Fhe.Props.C72_ciphertext",
    "Fhe.Props.C72_meaning",
    "Fhe.Props.C72_no_seed",
    "Fhe.Props.C72_decrypt",
    "Fhe.Props.C72_seeded",
    "Fhe.Props.C72_seeded_differs"
   ],
   "note": "builds differ in their roots of unity; seeded objects are not portable (C72_seeded_differs)"
  },
  {
   "property": "C73",
   "status": "proved",
   "theorems": [
    "Fhe.Props.C73_refines",
    "Fhe.Props.C73_build",
    "Fhe.Props.C73_equality",
    "Fhe.Props.C73_not_native"
   ],
   "note": "All five transforms of the feature build refine a native operator, for every plan that meets the stated contract of the external crate; per dimension one native build matches all moduli."
  },
  {
   "property": "C74",
   "status": "proved",
   "theorems": [
    "Fhe.Props.C74_poly",
    "Fhe.Props.C74_poly_forgets",
    "Fhe.Props.C74_secret_key",
    "Fhe.Props.C74_plaintext",
    "Fhe.Props.C74_vector",
    "Fhe.Props.C74_builder"
   ],
   "note": "Zeroization of polynomials, secret keys, plaintexts, plaintext vectors and the evaluation-key builder overwrites every stored value with a zero; what is left is a function of the sizes and the parameters only. What the compiler and the allocator do with memory is outside the model."
  },
  {
   "property": "C75",
   "status": "proved",
   "theorems": [
    "Fhe.Props.C75_arithmetic",
    "Fhe.Props.C75_plain",
    "Fhe.Props.C75_switch",
    "Fhe.Props.C75_relinearize",
    "Fhe.Props.C75_evaluation_key",
    "Fhe.Props.C75_external_product",
    "Fhe.Props.C75_multiplicator",
    "Fhe.Props.C75_dot_product",
    "Fhe.Props.C75_decrypt",
    "Fhe.Props.C75_encrypt",
    "Fhe.Props.C75_bytes",
    "Fhe.Props.C75_flags",
    "Fhe.Props.C75_equivalence",
    "Fhe.Props.C75_plaintexts",
    "Fhe.Props.C75_not_transitive",
    "Fhe.Props.C75_roundtrip"
   ],
   "note": "Operations on equal (==) usable ciphertexts, plaintexts that hold messages and well-formed keys have the same outcome (panic, same error, equal results). Not covered: bytes of evaluation keys, whose order is that of a hash map. C75_not_transitive is the finding about plaintexts."
  },
  {
   "property": "C76",
   "status": "proved",
   "theorems": [
    "Fhe.Props.C76_field_ops",
    "Fhe.Props.C76_reductions",
    "Fhe.Props.C76_mul_shoup",
    "Fhe.Props.C76_variable_time",
    "Fhe.Props.C76_vectors",
    "Fhe.Props.C76_scalar_mul_vec",
    "Fhe.Props.C76_scalar_mul_vec_reveals_scalar",
    "Fhe.Props.C76_ntt",
    "Fhe.Props.C76_sampler",
    "Fhe.Props.C76_poly_ops",
    "Fhe.Props.C76_poly_mul",
    "Fhe.Props.C76_poly_convert",
    "Fhe.Props.C76_poly_create"
   ],
   "note": "Timing model: conditional jumps, table indices, divisions by non-constants and big-number arithmetic are observable (Model/Timed.lean). ConstantTime in Spec/Timing.lean: one trace for all admissible secrets, and the release build returns what the checked model returns. Finding: scalar_mul_vec reveals its scalar (proved)."
  },
  {
   "property": "C77",
   "status": "proved",
   "theorems": [
    "Fhe.Props.C77_encode",
    "Fhe.Props.C77_encode_signed",
    "Fhe.Props.C77_decode",
    "Fhe.Props.C77_secret_key",
    "Fhe.Props.C77_encrypt",
    "Fhe.Props.C77_encode_encrypt",
    "Fhe.Props.C77_public_encrypt",
    "Fhe.Props.C77_encode_public_encrypt",
    "Fhe.Props.C77_public_key",
    "Fhe.Props.C77_shares",
    "Fhe.Props.C77_relin_shares"
   ],
   "note": "Secrets are messages, secret keys and randomness; for t below the first modulus. Decryption and the generation of relinearization and Galois keys are in C78."
  },
  {
   "property": "C78",
   "status": "proved",
   "theorems": [
    "Fhe.Props.C78_decrypt",
    "Fhe.Props.C78_decrypt_bits",
    "Fhe.Props.C78_decrypt_reveals",
    "Fhe.Props.C78_scale_reveals",
    "Fhe.Props.C78_relinearization_key",
    "Fhe.Props.C78_galois_key"
   ],
   "note": "decryptionSigns (Spec/Timing.lean) are the signs on which the scaler jumps: C78_decrypt is the upper bound on what is revealed, C78_decrypt_reveals the converse, C78_decrypt_bits says one bit per coefficient, C78_scale_reveals that the bits differ for two concrete values."
  },
  {
   "property": "C79",
   "status": "proved",
   "theorems": [
    "Fhe.Props.C79_poly",
    "Fhe.Props.C79_ciphertext",
    "Fhe.Props.C79_encrypt",
    "Fhe.Props.C79_encrypt_public",
    "Fhe.Props.C79_public_key",
    "Fhe.Props.C79_relinearization",
    "Fhe.Props.C79_relinearization_generated",
    "Fhe.Props.C79_evaluation",
    "Fhe.Props.C79_evaluation_generated",
    "Fhe.Props.C79_evaluation_same",
    "Fhe.Props.C79_rgsw",
    "Fhe.Props.C79_rgsw_generated",
    "Fhe.Props.C79_secret_key_count",
    "Fhe.Props.C79_secret_key",
    "Fhe.Props.C79_secret_key_differ"
   ],
   "note": "Sizes as functions of public data; finding: the secret key of variance 32."
  },
  {
   "property": "C80",
   "status": "proved",
   "theorems": [
    "Fhe.Props.C80_tail",
    "Fhe.Props.C80_fresh"
   ],
   "note": "C80_tail: tails of linear combinations of sampled numbers. C80_fresh: the noise of public-key encryptions for all but a small fraction of the words of its samples. C65_ops_program applies it to bfv_ops."
  },
  {
   "property": "C81",
   "status": "proved",
   "theorems": [
    "Fhe.Props.C81_agree",
    "Fhe.Props.C81_agree_more",
    "Fhe.Props.C81_switch",
    "Fhe.Props.C81_operators",
    "Fhe.Props.C81_plain",
    "Fhe.Props.C81_relinearize",
    "Fhe.Props.C81_poly",
    "Fhe.Props.C81_builders",
    "Fhe.Props.C81_torn"
   ],
   "note": "Operations in place with the order of their assignments. C81_agree: they refine the functions of the other theorems on all inputs. C81_torn: the proviso on the parts is needed. GaloisKey::relinearize_into, whose output argument may be half written on error, is not exported."
  },
  {
   "property": "C82",
   "status": "proved",
   "theorems": [
    "Fhe.Props.C82_poly",
    "Fhe.Props.C82_ciphertext",
    "Fhe.Props.C82_secret_key",
    "Fhe.Props.C82_public_key",
    "Fhe.Props.C82_relin",
    "Fhe.Props.C82_evaluation",
    "Fhe.Props.C82_rgsw",
    "Fhe.Props.C82_parameters",
    "Fhe.Props.C82_accepted"
   ],
   "note": "C82_poly, C82_ciphertext, C82_secret_key, C82_public_key, C82_relin, C82_rgsw, C82_parameters: same bytes exactly if equal. C82_evaluation: equal exactly if the messages agree up to the order of the Galois keys. C82_accepted: what is written for accepted bytes is canonical."
  },
  {
   "property": "C83",
   "status": "proved",
   "theorems": [
    "Fhe.Props.C83_lower_left",
    "Fhe.Props.C83_lower_left_mul",
    "Fhe.Props.C83_higher_left",
    "Fhe.Props.C83_higher_left_mul",
    "Fhe.Props.C83_inverse_power",
    "Fhe.Props.C83_pow",
    "Fhe.Props.C83_generate_prime",
    "Fhe.Props.C83_defaults",
    "Fhe.Props.C83_public_key"
   ],
   "note": "Wrong sums of polynomials of different levels in release builds are a finding (C83_higher_left, C83_higher_left_mul)."
  },
  {
   "property": "C84",
   "status": "proved",
   "theorems": [
    "Fhe.Props.C84_transforms",
    "Fhe.Props.C84_scale",
    "Fhe.Props.C84_shapes",
    "Fhe.Props.C84_polynomials",
    "Fhe.Props.C84_constant",
    "Fhe.Props.C84_scale_polynomials",
    "Fhe.Props.C84_wrong_shape",
    "Fhe.Props.C84_layout",
    "Fhe.Props.C84_dot",
    "Fhe.Props.C84_fma",
    "Fhe.Props.C84_dot_scalar",
    "Fhe.Props.C84_dot_usable"
   ],
   "note": "Outcomes include undefined behaviour. Exact conditions for the pointer transforms, RnsScaler::scale and fma; all polynomials a program can make have the right shape (invariant), so transforms, scaling and dot products on them never access foreign memory. Two safe functions for which that fails are findings (C84_scale, C84_layout)."
  },
  {
   "property": "C85",
   "status": "proved",
   "theorems": [
    "Fhe.Props.C85_slots",
    "Fhe.Props.C85_coefficients",
    "Fhe.Props.C85_last_level",
    "Fhe.Props.C85_read",
    "Fhe.Props.C85_multiply",
    "Fhe.Props.C85_agree",
    "Fhe.Props.C85_two_messages"
   ],
   "note": "the encoder panics concern builds with debug assertions; what release builds make of such slots is C91"
  },
  {
   "property": "C86",
   "status": "proved",
   "theorems": [
    "Fhe.Props.C86_default",
    "Fhe.Props.C86_level_zero"
   ],
   "note": "Exact agreement, up to the timing flags that == ignores. If a modulus of 62 bits was dropped at the level, the multiplicator may choose it for its basis; then only the bounds of C39 are stated."
  },
  {
   "property": "C87",
   "status": "proved",
   "theorems": [
    "Fhe.Props.C87_fresh",
    "Fhe.Props.C87_keys",
    "Fhe.Props.C87_read",
    "Fhe.Props.C87_linear",
    "Fhe.Props.C87_plain",
    "Fhe.Props.C87_mul",
    "Fhe.Props.C87_mul_equal",
    "Fhe.Props.C87_square",
    "Fhe.Props.C87_relinearize",
    "Fhe.Props.C87_evaluation",
    "Fhe.Props.C87_rgsw",
    "Fhe.Props.C87_multiplicator",
    "Fhe.Props.C87_dot",
    "Fhe.Props.C87_joint_public_key",
    "Fhe.Props.C87_switch_public",
    "Fhe.Props.C87_switch_secret",
    "Fhe.Props.C87_joint_relinearization_key"
   ],
   "note": "Flags of results of every operation that returned, including those of several parties; no condition on the parameters. C87_square shows the exception for equal factors."
  },
  {
   "property": "C88",
   "status": "proved",
   "theorems": [
    "Fhe.Props.C88_poly",
    "Fhe.Props.C88_ciphertext"
   ],
   "note": "Polynomials in every representation and ciphertexts at every level; the result of an accepted read is given exactly."
  },
  {
   "property": "C89",
   "status": "proved",
   "theorems": [
    "Fhe.Props.C89_poly",
    "Fhe.Props.C89_poly_refused",
    "Fhe.Props.C89_ciphertext"
   ],
   "note": "In the model the written part comes from a reduced polynomial (Represents); moduli whose bits differ place by place but agree in sum are not covered (the bytes are then cut elsewhere)."
  },
  {
   "property": "C90",
   "status": "proved",
   "theorems": [
    "Fhe.Props.C90_reason",
    "Fhe.Props.C90_generated",
    "Fhe.Props.C90_accepts"
   ],
   "note": "The bounds that some errors repeat (8 to 65536, 1 to 32, 10 to 62) and the nested error of an invalid modulus are not part of the modelled error values."
  },
  {
   "property": "C91",
   "status": "proved",
   "theorems": [
    "Fhe.Props.C91_some_slots",
    "Fhe.Props.C91_below_twice",
    "Fhe.Props.C91_other_message"
   ],
   "note": "The native transform, not the one of the optional feature tfhe-ntt. Coefficients (not slots) that are not reduced are treated by C85 for builds with debug assertions; what a release build makes of them at the last level is not stated."
  },
  {
   "property": "C92",
   "status": "proved",
   "theorems": [
    "Fhe.Props.C92_depth",
    "Fhe.Props.C92_slots",
    "Fhe.Props.C92_packed",
    "Fhe.Props.C92_packed_slots",
    "Fhe.Props.C92_scalar_product",
    "Fhe.Props.C92_typical",
    "Fhe.Props.C92_any_noise",
    "Fhe.Props.C92_worst",
    "Fhe.Props.C92_first_sets",
    "Fhe.Props.C92_secret_key",
    "Fhe.Props.C92_no_products"
   ],
   "note": "C92_depth and C92_slots are for the sizes in the list capacities of Spec/Capacity.lean, C92_packed and C92_packed_slots (with rotations and inner sums) for those in the list packings of Spec/Packing.lean; they are worst-case bounds, so deeper computations succeed for most random choices. For the degree 2048 and 33 bits neither the guarantee for all choices nor the counterexample is proved; C92_typical has almost all choices."
  },
  {
   "property": "C93",
   "status": "proved",
   "theorems": [
    "Fhe.Props.C93_switch",
    "Fhe.Props.C93_relinearize",
    "Fhe.Props.C93_evaluate",
    "Fhe.Props.C93_multiply",
    "Fhe.Props.C93_crypt",
    "Fhe.Props.C93_dot",
    "Fhe.Props.C93_relinearization_key",
    "Fhe.Props.C93_evaluation_key",
    "Fhe.Props.C93_shares",
    "Fhe.Props.C93_encode",
    "Fhe.Props.C93_decode",
    "Fhe.Props.C93_new"
   ],
   "note": "Lists of reasons and errors for each operation; exact in both directions."
  },
  {
   "property": "C94",
   "status": "proved",
   "theorems": [
    "Fhe.Props.C94_operations",
    "Fhe.Props.C94_equal",
    "Fhe.Props.C94_build",
    "Fhe.Props.C94_bytes",
    "Fhe.Props.C94_defaults"
   ],
   "note": "Randomness is indexed by exponent in the model of the builder, so that orders can be compared; in the code each order draws it in sequence."
  },
  {
   "property": "C95",
   "status": "proved",
   "theorems": [
    "Fhe.Props.C95_sqrt",
    "Fhe.Props.C95_variance_panics",
    "Fhe.Props.C95_variance",
    "Fhe.Props.C95_variance_constant"
   ],
   "note": "Exponents of floating-point numbers are unbounded in the model."
  },
  {
   "property": "C96",
   "status": "proved",
   "theorems": [
    "Fhe.Props.C96_moves",
    "Fhe.Props.C96_order",
    "Fhe.Props.C96_back",
    "Fhe.Props.C96_reach"
   ],
   "note": "Sequences of any length, at any level; C96_order and C96_back need room for the noise."
  },
  {
   "property": "C97",
   "status": "proved",
   "theorems": [
    "Fhe.Props.C97_secret_key",
    "Fhe.Props.C97_public_key"
   ],
   "note": "the hardness of learning with errors itself is an assumption, not a theorem; evaluation keys are not part of what the adversary sees"
  },
  {
   "property": "C98",
   "status": "proved",
   "theorems": [
    "Fhe.Props.C98_one_honest",
    "Fhe.Props.C98_last_chooses",
    "Fhe.Props.C98_last_decrypts"
   ],
   "note": "Reduction to ring learning with errors for one honest party whose share the others have not seen, and a proof that a party that chooses last controls the joint key and decrypts alone. The common random polynomial is given by uniform coefficients. The shares of the other parties are valid polynomials, marked as the library marks them; encryption is at level 0."
  },
  {
   "property": "C99",
   "status": "proved",
   "theorems": [
    "Fhe.Props.C99_decrypt",
    "Fhe.Props.C99_share"
   ],
   "note": "Concrete ciphertexts that reveal the key to whoever sees the decryption or the share. A limitation of the scheme and of the size of the error in decryption shares, which the code marks as a TODO."
  },
  {
   "property": "C100",
   "status": "proved",
   "theorems": [
    "Fhe.Props.C100_secret_key",
    "Fhe.Props.C100_public_key"
   ],
   "note": "The room needed for the noise is t (4 v + 2) for plaintext modulus t and variance v."
  },
  {
   "property": "C101",
   "status": "proved",
   "theorems": [
    "Fhe.Props.C101_hides",
    "Fhe.Props.C101_receiver"
   ],
   "note": "level 0, like C97 for public keys; the adversary is any function of the public key and the shares, the bound is in terms of two samples of learning with errors"
  },
  {
   "property": "C102",
   "status": "proved",
   "theorems": [
    "Fhe.Props.C102_hides"
   ],
   "note": "Reduction to learning with errors at a fixed ciphertext distribution; the hardness itself is not assumed or proved."
  },
  {
   "property": "C103",
   "status": "proved",
   "theorems": [
    "Fhe.Props.C103_open",
    "Fhe.Props.C103_self",
    "Fhe.Props.C103_zero",
    "Fhe.Props.C103_stays",
    "Fhe.Props.C103_product",
    "Fhe.Props.C103_switch",
    "Fhe.Props.C103_switch_to"
   ],
   "note": "C103_open compares the results of decryption with two keys for equality. C103_self and C103_zero need room for the rounding of the plaintext that is added (hroom) and reliable parameters; C103_stays, C103_open need neither. The examples apply all six theorems to a concrete ciphertext."
  }
 ]
}